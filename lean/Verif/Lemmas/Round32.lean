import Verif.Rnd
import Mathlib.Analysis.SpecialFunctions.Trigonometric.Bounds
import Mathlib.Analysis.SpecialFunctions.Trigonometric.DerivHyp
import Mathlib.Analysis.SpecialFunctions.Trigonometric.Series

/-! # Binary32: symmetry, absorption from below, elementary functions of tiny arguments -/

namespace Adx

theorem rne_neg (x : ℝ) : rne (-x) = -rne x := by
  have h := Int.floor_add_fract x
  have h0 := Int.fract_nonneg x
  have h1 := Int.fract_lt_one x
  rcases lt_trichotomy (Int.fract x) (1 / 2) with hlt | heq | hgt
  · rw [rne_eq_of_near (x := x) (m := ⌊x⌋) (by rw [abs_lt]; constructor <;> linarith),
      rne_eq_of_near (m := -⌊x⌋) (by rw [abs_lt]; push_cast; constructor <;> linarith)]
  · have hf : ⌊-x⌋ = -⌊x⌋ - 1 := by
      rw [Int.floor_eq_iff]; push_cast; constructor <;> linarith
    have hfr : Int.fract (-x) = 1 / 2 := by
      have := Int.floor_add_fract (-x)
      rw [hf] at this; push_cast at this; linarith
    have e1 : rne x = if Even ⌊x⌋ then ⌊x⌋ else ⌊x⌋ + 1 := by
      unfold rne; rw [heq]; simp
    have e2 : rne (-x) = if Even ⌊-x⌋ then ⌊-x⌋ else ⌊-x⌋ + 1 := by
      unfold rne; rw [hfr]; simp
    rw [e1, e2, hf]
    by_cases he : Even ⌊x⌋
    · have : ¬ Even (-⌊x⌋ - 1) := by
        rw [Int.not_even_iff_odd]; exact he.neg.sub_odd odd_one
      rw [if_pos he, if_neg this]; ring
    · have : Even (-⌊x⌋ - 1) := (Int.not_even_iff_odd.1 he).neg.sub_odd odd_one
      rw [if_neg he, if_pos this]; ring
  · rw [rne_eq_of_near (x := x) (m := ⌊x⌋ + 1) (by rw [abs_lt]; push_cast; constructor <;> linarith),
      rne_eq_of_near (m := -(⌊x⌋ + 1)) (by rw [abs_lt]; push_cast; constructor <;> linarith)]

theorem ulp32_neg (x : ℝ) : ulp32 (-x) = ulp32 x := by rw [ulp32, ulp32, abs_neg]

theorem rd32_neg (x : ℝ) : rd32 (-x) = -rd32 x := by
  rw [rd32, rd32, ulp32_neg, neg_div, rne_neg]; push_cast; ring

/-- Absorption from below: subtracting less than a quarter of a unit in the last place. -/
theorem rd32_absorb_sub {x t : ℝ} (h : Rep32 x) (hx : 0 < x) (ht : 0 ≤ t) (htu : t < ulp32 x / 4) :
    rd32 (x - t) = x := by
  obtain ⟨m, hm⟩ := h.units
  have hu := ulp32_pos x
  have hb := ulp32_bounds hx.ne'
  rw [abs_of_pos hx] at hb
  have e23 : (2 : ℝ) ^ (Int.log 2 |x|) = 2 ^ 23 * ulp32 x := by
    rw [ulp32, show (2 : ℝ) ^ 23 = (2 : ℝ) ^ (23 : ℤ) by norm_num, ← zpow_add₀ (by norm_num)]
    congr 1; ring
  have e24 : (2 : ℝ) ^ (Int.log 2 |x| + 1) = 2 ^ 24 * ulp32 x := by
    rw [zpow_add₀ (by norm_num), e23]; norm_num; ring
  have e22 : (2 : ℝ) ^ (Int.log 2 |x| - 1) = 2 ^ 22 * ulp32 x := by
    rw [zpow_sub₀ (by norm_num), e23]; norm_num; ring
  by_cases hc : 2 ^ 23 * ulp32 x ≤ x - t
  · have hul : ulp32 (x - t) = ulp32 x :=
      ulp32_eq (n := Int.log 2 |x|) (by rw [e23]; exact hc) (by rw [e24]; linarith)
    have : rne ((x - t) / ulp32 x) = m := by
      apply rne_eq_of_near
      have e : (x - t) / ulp32 x - m = -(t / ulp32 x) := by
        rw [sub_div]
        have : x / ulp32 x = m := by rw [div_eq_iff hu.ne']; exact hm
        rw [this]; ring
      rw [e, abs_neg, abs_of_nonneg (by positivity), div_lt_iff₀ hu]
      linarith
    rw [rd32, hul, this, ← hm]
  · push Not at hc
    have hm23 : m = 2 ^ 23 := by
      have h1 : (m : ℝ) < 2 ^ 23 + 1 := by
        have : (m : ℝ) * ulp32 x < (2 ^ 23 + 1) * ulp32 x := by rw [← hm]; linarith
        exact lt_of_mul_lt_mul_right this hu.le
      have h2 : (2 : ℝ) ^ 23 ≤ m := by
        have : 2 ^ 23 * ulp32 x ≤ (m : ℝ) * ulp32 x := by rw [← hm]; linarith
        exact le_of_mul_le_mul_right this hu
      have h1' : m < 2 ^ 23 + 1 := by exact_mod_cast h1
      have h2' : 2 ^ 23 ≤ m := by exact_mod_cast h2
      omega
    have hul : ulp32 (x - t) = ulp32 x / 2 := by
      rw [ulp32_eq (x := x - t) (n := Int.log 2 |x| - 1) (by rw [e22]; linarith) (by rw [sub_add_cancel, e23]; exact hc),
        ulp32, show Int.log 2 |x| - 1 - 23 = (Int.log 2 |x| - 23) - 1 by ring, zpow_sub_one₀ (by norm_num)]
      ring
    have : rne ((x - t) / (ulp32 x / 2)) = 2 ^ 24 := by
      apply rne_eq_of_near
      have e : (x - t) / (ulp32 x / 2) - ((2 ^ 24 : ℤ) : ℝ) = -(2 * t / ulp32 x) := by
        have : x = 2 ^ 23 * ulp32 x := by rw [hm23] at hm; push_cast at hm; linarith
        have hx' : x / ulp32 x = 2 ^ 23 := by rw [div_eq_iff hu.ne']; exact this
        rw [div_div_eq_mul_div, sub_mul, sub_div, mul_div_right_comm, hx']; push_cast; ring
      rw [e, abs_neg, abs_of_nonneg (by positivity), div_lt_iff₀ hu]
      linarith
    rw [rd32, hul, this]
    push_cast
    rw [hm23] at hm; push_cast at hm
    linarith

theorem rep32_one : Rep32 1 := ⟨1, 0, by norm_num, by simp⟩

theorem ulp32_one : ulp32 1 = (2 : ℝ) ^ (-23 : ℤ) := ulp32_eq (n := 0) (by norm_num) (by norm_num)

theorem rd32_cos_tiny {y : ℝ} (hy : |y| ≤ 1 / 2 ^ 12) : rd32 (Real.cos y) = 1 := by
  rcases eq_or_ne y 0 with rfl | h0
  · rw [Real.cos_zero, rep32_one.rd]
  have h1 := Real.one_sub_sq_div_two_lt_cos h0
  have h2 := Real.cos_le_one y
  have h3 : y ^ 2 ≤ (1 / 2 ^ 12) ^ 2 := by rw [← sq_abs]; exact pow_le_pow_left₀ (abs_nonneg y) hy 2
  have := rd32_absorb_sub rep32_one one_pos (t := 1 - Real.cos y) (by linarith) (by
    rw [ulp32_one]; norm_num at h3 ⊢; linarith)
  rwa [sub_sub_cancel] at this

theorem rd32_sin_tiny {y : ℝ} (hr : Rep32 y) (hy : |y| ≤ 1 / 2 ^ 12) : rd32 (Real.sin y) = y := by
  have key : ∀ y : ℝ, 0 < y → Rep32 y → y ≤ 1 / 2 ^ 12 → rd32 (Real.sin y) = y := by
    intro y h0 hr hy
    have h1 := Real.sin_gt_sub_cube h0
    have h2 := Real.sin_le h0.le
    have hb := (ulp32_bounds h0.ne').2
    rw [abs_of_pos h0] at hb
    have h3 : y ^ 2 ≤ (1 / 2 ^ 12) ^ 2 := pow_le_pow_left₀ h0.le hy 2
    have h4 : y ^ 3 / 4 < ulp32 y / 4 := by
      have : y ^ 3 ≤ y * (1 / 2 ^ 12) ^ 2 := by rw [pow_succ, mul_comm]; exact mul_le_mul_of_nonneg_left h3 h0.le
      norm_num at this hb ⊢
      linarith
    have := rd32_absorb_sub hr h0 (t := y - Real.sin y) (by linarith) (by linarith)
    rwa [sub_sub_cancel] at this
  rcases lt_trichotomy y 0 with h | h | h
  · have hr' : Rep32 (-y) := by
      obtain ⟨m, k, h1, h2⟩ := hr
      exact ⟨-m, k, by rwa [abs_neg], by rw [h2]; push_cast; ring⟩
    have := key (-y) (by linarith) hr' (by rwa [abs_of_neg h] at hy)
    rw [Real.sin_neg, rd32_neg] at this
    linarith
  · rw [h, Real.sin_zero, rd32_zero]
  · exact key y h hr (by rwa [abs_of_pos h] at hy)

/-- `cosh` and `sinh` of arguments up to 1/2. -/
theorem cosh_le_tiny {y : ℝ} (hy : |y| ≤ 1 / 2) : Real.cosh y ≤ 1 + y ^ 2 * (3 / 4) := by
  have h2 : y ^ 2 ≤ (1 / 2) ^ 2 := by rw [← sq_abs]; exact pow_le_pow_left₀ (abs_nonneg y) hy 2
  have h := Real.cosh_le_exp_half_sq y
  have h1 : Real.exp (y ^ 2 / 2) ≤ 1 + y ^ 2 / 2 + (y ^ 2 / 2) ^ 2 := by
    have := Real.abs_exp_sub_one_sub_id_le (x := y ^ 2 / 2) (by rw [abs_of_nonneg (by positivity)]; linarith)
    linarith [(abs_le.1 this).2]
  nlinarith [sq_nonneg y]

theorem sinh_le_tiny {y : ℝ} (h0 : 0 ≤ y) (hy : y ≤ 1 / 2) : Real.sinh y ≤ y + y ^ 3 / 4 := by
  have hd : ∀ s : ℝ, HasDerivAt (fun s => s + s ^ 3 / 4 - Real.sinh s) (1 + 3 * s ^ 2 / 4 - Real.cosh s) s := fun s => by
    have := (((hasDerivAt_id' s).fun_add ((hasDerivAt_pow 3 s).div_const 4)).fun_sub (Real.hasDerivAt_sinh s))
    refine this.congr_deriv ?_
    norm_num
  have hm : MonotoneOn (fun s => s + s ^ 3 / 4 - Real.sinh s) (Set.Icc 0 (1 / 2)) := by
    refine monotoneOn_of_deriv_nonneg (convex_Icc _ _)
      (continuous_iff_continuousAt.2 fun s => (hd s).continuousAt).continuousOn
      (fun s _ => (hd s).differentiableAt.differentiableWithinAt) ?_
    intro s hs
    rw [interior_Icc] at hs
    rw [(hd s).deriv]
    have := cosh_le_tiny (y := s) (by rw [abs_of_pos hs.1]; exact hs.2.le)
    linarith
  have := hm (Set.left_mem_Icc.2 (by norm_num)) ⟨h0, hy⟩ h0
  simp only [Real.sinh_zero] at this
  linarith

theorem rd32_cosh_tiny {y : ℝ} (hy : |y| ≤ 1 / 2 ^ 12) : rd32 (Real.cosh y) = 1 := by
  have h1 := cosh_le_tiny (y := y) (hy.trans (by norm_num))
  have h2 := Real.one_le_cosh y
  have h3 : y ^ 2 ≤ (1 / 2 ^ 12) ^ 2 := by rw [← sq_abs]; exact pow_le_pow_left₀ (abs_nonneg y) hy 2
  have := rd32_absorb rep32_one one_pos (t := Real.cosh y - 1) (by linarith) (by
    rw [ulp32_one]; norm_num at h3 ⊢; linarith)
  rwa [add_sub_cancel] at this

theorem rd32_sinh_tiny {y : ℝ} (hr : Rep32 y) (hy : |y| ≤ 1 / 2 ^ 12) : rd32 (Real.sinh y) = y := by
  have key : ∀ y : ℝ, 0 < y → Rep32 y → y ≤ 1 / 2 ^ 12 → rd32 (Real.sinh y) = y := by
    intro y h0 hr hy
    have h1 := sinh_le_tiny h0.le (hy.trans (by norm_num))
    have h2 : y ≤ Real.sinh y := Real.self_le_sinh_iff.2 h0.le
    have hb := (ulp32_bounds h0.ne').2
    rw [abs_of_pos h0] at hb
    have h3 : y ^ 2 ≤ (1 / 2 ^ 12) ^ 2 := pow_le_pow_left₀ h0.le hy 2
    have h4 : y ^ 3 / 4 < ulp32 y / 4 := by
      have : y ^ 3 ≤ y * (1 / 2 ^ 12) ^ 2 := by rw [pow_succ, mul_comm]; exact mul_le_mul_of_nonneg_left h3 h0.le
      norm_num at this hb ⊢
      linarith
    have := rd32_absorb hr h0 (t := Real.sinh y - y) (by linarith) (by linarith [ulp32_pos y])
    rwa [add_sub_cancel] at this
  rcases lt_trichotomy y 0 with h | h | h
  · have hr' : Rep32 (-y) := by
      obtain ⟨m, k, h1, h2⟩ := hr
      exact ⟨-m, k, by rwa [abs_neg], by rw [h2]; push_cast; ring⟩
    have := key (-y) (by linarith) hr' (by rwa [abs_of_neg h] at hy)
    rw [Real.sinh_neg, rd32_neg] at this
    linarith
  · rw [h, Real.sinh_zero, rd32_zero]
  · exact key y h hr (by rwa [abs_of_pos h] at hy)

end Adx
