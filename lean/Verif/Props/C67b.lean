import Verif.Props.C67

/-! # C67: rounding errors of the universal functions -/

namespace Adx
open Spec

section
variable {F : Fp} {u L : ℝ} (hF : StdModel F u L)
include hF

theorem rd_zero : ((0 : ℕ) : Rnd F).val = 0 := by
  rw [Rnd.val_natCast, hF.lit 0 (by norm_num)]; simp

theorem two_eta : 2 * eta u ≤ 1 := by
  have h1 := hF.u_pos
  have h2 := hF.u_small
  have h3 := Real.one_sub_inv_le_log_of_pos (x := 1 - u) (by linarith)
  have h4 : (1 - u)⁻¹ ≤ 3 / 2 := by
    rw [inv_le_comm₀ (by linarith) (by norm_num)]; linarith
  rw [eta]; linarith

/-- `√α χ`. -/
theorem within_arg (chi al : Rnd F) :
    Within u 2 (JFun.sqrt al * chi).val (Real.sqrt al.val * chi.val) :=
  (((Within.ex al).sqrt hF).mul hF (.ex chi)).mono hF (by norm_num)

section elliptic
variable (chi al : Rnd F) (h : 0 < al.val)
include h

theorem near_ufunc0_pos : Near u (L + 2) (1 + Real.sqrt al.val * |chi.val|) (ufunc0 chi al).val
    (ufunc0 chi.val al.val) := by
  have hy : |Real.sqrt al.val * chi.val| = Real.sqrt al.val * |chi.val| := by
    rw [abs_mul, abs_of_nonneg (Real.sqrt_nonneg _)]
  have h1 := Near.cos hF (within_arg hF chi al)
  rw [hy, add_comm 2 L] at h1
  have e1 : ufunc0 chi al = JFun.cos (JFun.sqrt al * chi) := by
    rw [ufunc0, if_pos (by rw [Rnd.lt_rnd, rd_zero hF]; simpa using h)]
  have e2 : ufunc0 chi.val al.val = Real.cos (Real.sqrt al.val * chi.val) := by simp [ufunc0, h]
  rw [e1, e2]; exact h1

theorem near_ufunc1_pos : Near u (L + 4) |chi.val| (ufunc1 chi al).val (ufunc1 chi.val al.val) := by
  have hs := Real.sqrt_pos.2 h
  have hy : |Real.sqrt al.val * chi.val| = Real.sqrt al.val * |chi.val| := by
    rw [abs_mul, abs_of_nonneg (Real.sqrt_nonneg _)]
  have h1 := (Near.sin hF (within_arg hF chi al)).div hF ((Within.ex al).sqrt hF)
  rw [hy, abs_of_pos hs, mul_div_cancel_left₀ _ hs.ne'] at h1
  have e1 : ufunc1 chi al = JFun.sin (JFun.sqrt al * chi) / JFun.sqrt al := by
    rw [ufunc1, if_pos (by rw [Rnd.lt_rnd, rd_zero hF]; simpa using h)]
  have e2 : ufunc1 chi.val al.val = Real.sin (Real.sqrt al.val * chi.val) / Real.sqrt al.val := by simp [ufunc1, h]
  rw [e1, e2]; exact h1.mono hF (by linarith) le_rfl

theorem near_ufunc2_pos : Near u (L + 4) ((2 + Real.sqrt al.val * |chi.val|) / al.val) (ufunc2 chi al).val
    (ufunc2 chi.val al.val) := by
  have hL := hF.one_le
  have hy : |Real.sqrt al.val * chi.val| = Real.sqrt al.val * |chi.val| := by
    rw [abs_mul, abs_of_nonneg (Real.sqrt_nonneg _)]
  have h1 := (((Within.lit hF 1 (by norm_num)).near hF).sub hF (Near.cos hF (within_arg hF chi al))).div hF (.ex al)
  rw [hy, abs_of_pos h, Nat.cast_one, abs_one] at h1
  have e1 : ufunc2 chi al = (((1 : ℕ) : Rnd F) - JFun.cos (JFun.sqrt al * chi)) / al := by
    rw [ufunc2, if_pos (by rw [Rnd.lt_rnd, rd_zero hF]; simpa using h)]
  have e2 : ufunc2 chi.val al.val = (1 - Real.cos (Real.sqrt al.val * chi.val)) / al.val := by simp [ufunc2, h]
  rw [e1, e2]
  refine h1.mono hF ?_ (le_of_eq (by ring))
  simp only [max_def]; split_ifs <;> linarith

theorem near_ufunc3_pos : Near u (L + 6) (2 * |chi.val| / al.val) (ufunc3 chi al).val (ufunc3 chi.val al.val) := by
  have hL := hF.one_le
  have hs := Real.sqrt_pos.2 h
  have hy : |Real.sqrt al.val * chi.val| = Real.sqrt al.val * |chi.val| := by
    rw [abs_mul, abs_of_nonneg (Real.sqrt_nonneg _)]
  have h1 := ((((within_arg hF chi al).near hF).sub hF (Near.sin hF (within_arg hF chi al))).div hF (.ex al)).div hF
    ((Within.ex al).sqrt hF)
  rw [hy, abs_of_pos h, abs_of_pos hs] at h1
  have e1 : ufunc3 chi al = (JFun.sqrt al * chi - JFun.sin (JFun.sqrt al * chi)) / al / JFun.sqrt al := by
    rw [ufunc3, if_pos (by rw [Rnd.lt_rnd, rd_zero hF]; simpa using h)]
  have e2 : ufunc3 chi.val al.val =
      (Real.sqrt al.val * chi.val - Real.sin (Real.sqrt al.val * chi.val)) / al.val / Real.sqrt al.val := by
    simp [ufunc3, h]
  rw [e1, e2]
  refine h1.mono hF ?_ (le_of_eq (by field_simp; ring))
  simp only [max_def]; split_ifs <;> linarith

theorem near_ufunc4_pos :
    Near u (L + 7) ((al.val * chi.val ^ 2 + 4 + 2 * (Real.sqrt al.val * |chi.val|)) / (2 * al.val ^ 2))
      (ufunc4 chi al).val (ufunc4 chi.val al.val) := by
  have hL := hF.one_le
  have hy : |Real.sqrt al.val * chi.val| = Real.sqrt al.val * |chi.val| := by
    rw [abs_mul, abs_of_nonneg (Real.sqrt_nonneg _)]
  have h1 := (((((Within.ex al).mul hF ((Within.ex chi).sq hF)).near hF).sub hF
    ((Within.lit hF 2 (by norm_num)).near hF)).add hF (((Within.lit hF 2 (by norm_num)).near hF).mul hF
      (Near.cos hF (within_arg hF chi al)))).div hF ((Within.lit hF 2 (by norm_num)).mul hF ((Within.ex al).sq hF))
  rw [hy, Nat.cast_two, abs_two, abs_of_nonneg (show 0 ≤ al.val * chi.val ^ 2 by positivity),
    abs_of_pos (show 0 < 2 * al.val ^ 2 by positivity)] at h1
  have e1 : ufunc4 chi al = (al * chi ^ 2 - ((2 : ℕ) : Rnd F) + ((2 : ℕ) : Rnd F) * JFun.cos (JFun.sqrt al * chi)) /
      (((2 : ℕ) : Rnd F) * al ^ 2) := by
    rw [ufunc4, if_pos (by rw [Rnd.lt_rnd, rd_zero hF]; simpa using h)]
  have e2 : ufunc4 chi.val al.val =
      (al.val * chi.val ^ 2 - 2 + 2 * Real.cos (Real.sqrt al.val * chi.val)) / (2 * al.val ^ 2) := by
    simp [ufunc4, h]
  rw [e1, e2]
  refine h1.mono hF ?_ (le_of_eq (by ring))
  simp only [max_def]; split_ifs <;> linarith

theorem near_ufunc5_pos :
    Near u (L + 10) ((al.val ^ 2 * |chi.val| ^ 3 + 12 * al.val * |chi.val|) / (6 * al.val ^ 3))
      (ufunc5 chi al).val (ufunc5 chi.val al.val) := by
  have hL := hF.one_le
  have hs := Real.sqrt_pos.2 h
  have hy : |Real.sqrt al.val * chi.val| = Real.sqrt al.val * |chi.val| := by
    rw [abs_mul, abs_of_nonneg (Real.sqrt_nonneg _)]
  have h1 := (((((((Within.ex al).sq hF).mul hF ((Within.ex chi).pow3 hF)).near hF).sub hF
    ((((Within.lit hF 6 (by norm_num)).mul hF (.ex al)).mul hF (.ex chi)).near hF)).add hF
      ((((Within.lit hF 6 (by norm_num)).mul hF ((Within.ex al).sqrt hF)).near hF).mul hF
        (Near.sin hF (within_arg hF chi al)))).div hF
          ((Within.lit hF 6 (by norm_num)).mul hF ((Within.ex al).pow3 hF)))
  have hss := Real.mul_self_sqrt h.le
  have e1 : ufunc5 chi al = (al ^ 2 * chi ^ 3 - ((6 : ℕ) : Rnd F) * al * chi +
      ((6 : ℕ) : Rnd F) * JFun.sqrt al * JFun.sin (JFun.sqrt al * chi)) / (((6 : ℕ) : Rnd F) * al ^ 3) := by
    rw [ufunc5, if_pos (by rw [Rnd.lt_rnd, rd_zero hF]; simpa using h)]
  have e2 : ufunc5 chi.val al.val = (al.val ^ 2 * chi.val ^ 3 - ((6 : ℕ) : ℝ) * al.val * chi.val +
      ((6 : ℕ) : ℝ) * Real.sqrt al.val * Real.sin (Real.sqrt al.val * chi.val)) / (((6 : ℕ) : ℝ) * al.val ^ 3) := by
    simp [ufunc5, h]
  rw [e1, e2]
  refine h1.mono hF ?_ (le_of_eq ?_)
  · simp only [max_def]; split_ifs <;> linarith
  · rw [hy, abs_of_pos (show 0 < ((6 : ℕ) : ℝ) * al.val ^ 3 by positivity), abs_mul, abs_mul, abs_mul, abs_mul,
      abs_of_pos hs, abs_pow, abs_pow, abs_of_pos h]
    push_cast
    rw [abs_of_pos (by norm_num : (0 : ℝ) < 6)]
    congr 1
    linear_combination (6 * |chi.val|) * hss

/-- Ellipses: errors relative to the magnitude of the terms. `ufunc2` and `ufunc3` divide a rounding error by `alpha`
(by `alpha^(3/2)`), which is what ruins them near the parabola (C60). -/
theorem C67_ufunc_elliptic :
    let y := Real.sqrt al.val * |chi.val|
    |(ufunc0 chi al).val - ufunc0 chi.val al.val| ≤ gam u (L + 2) * (1 + y) ∧
    |(ufunc1 chi al).val - ufunc1 chi.val al.val| ≤ gam u (L + 4) * |chi.val| ∧
    |(ufunc2 chi al).val - ufunc2 chi.val al.val| ≤ gam u (L + 4) * ((2 + y) / al.val) ∧
    |(ufunc3 chi al).val - ufunc3 chi.val al.val| ≤ gam u (L + 6) * (2 * |chi.val| / al.val) ∧
    |(ufunc4 chi al).val - ufunc4 chi.val al.val| ≤
      gam u (L + 7) * ((al.val * chi.val ^ 2 + 4 + 2 * y) / (2 * al.val ^ 2)) ∧
    |(ufunc5 chi al).val - ufunc5 chi.val al.val| ≤
      gam u (L + 10) * ((al.val ^ 2 * |chi.val| ^ 3 + 12 * al.val * |chi.val|) / (6 * al.val ^ 3)) := by
  have h1 := hF.one_le
  have h2 := hF.le_hundred
  exact ⟨(near_ufunc0_pos hF chi al h).bound hF (by linarith) (ku_lt hF (by linarith)),
    (near_ufunc1_pos hF chi al h).bound hF (by linarith) (ku_lt hF (by linarith)),
    (near_ufunc2_pos hF chi al h).bound hF (by linarith) (ku_lt hF (by linarith)),
    (near_ufunc3_pos hF chi al h).bound hF (by linarith) (ku_lt hF (by linarith)),
    (near_ufunc4_pos hF chi al h).bound hF (by linarith) (ku_lt hF (by linarith)),
    (near_ufunc5_pos hF chi al h).bound hF (by linarith) (ku_lt hF (by linarith))⟩
end elliptic

section hyperbolic
variable (chi al : Rnd F) (h : al.val < 0)
include h

theorem neg_branch : ¬ (JFun.lt ((0 : ℕ) : Rnd F) al = true) ∧ JFun.lt al ((0 : ℕ) : Rnd F) = true := by
  rw [Rnd.lt_rnd, Rnd.lt_rnd, rd_zero hF]
  exact ⟨by simpa using h.le, by simpa using h⟩

omit h in
theorem within_argN : Within u 2 (JFun.sqrt (-al) * chi).val (Real.sqrt (-al.val) * chi.val) := within_arg hF chi (-al)

theorem within_ufunc0_neg : Within u (L + 4 * (Real.sqrt (-al.val) * |chi.val|)) (ufunc0 chi al).val
    (ufunc0 chi.val al.val) := by
  have hy : |Real.sqrt (-al.val) * chi.val| = Real.sqrt (-al.val) * |chi.val| := by
    rw [abs_mul, abs_of_nonneg (Real.sqrt_nonneg _)]
  have h1 := Near.cosh hF (within_argN hF chi al) (two_eta hF)
  rw [hy] at h1
  have e1 : ufunc0 chi al = JFun.cosh (JFun.sqrt (-al) * chi) := by
    rw [ufunc0, if_neg (neg_branch hF al h).1, if_pos (neg_branch hF al h).2]
  have e2 : ufunc0 chi.val al.val = Real.cosh (Real.sqrt (-al.val) * chi.val) := by simp [ufunc0, h, h.le]
  rw [e1, e2]; exact h1.mono hF (by linarith)

theorem within_ufunc1_neg : Within u (L + 4 + 4 * (Real.sqrt (-al.val) * |chi.val|)) (ufunc1 chi al).val
    (ufunc1 chi.val al.val) := by
  have hy : |Real.sqrt (-al.val) * chi.val| = Real.sqrt (-al.val) * |chi.val| := by
    rw [abs_mul, abs_of_nonneg (Real.sqrt_nonneg _)]
  have h1 := (Near.sinh hF (within_argN hF chi al) (two_eta hF)).div hF ((Within.ex (-al)).sqrt hF)
  rw [hy] at h1
  have e1 : ufunc1 chi al = JFun.sinh (JFun.sqrt (-al) * chi) / JFun.sqrt (-al) := by
    rw [ufunc1, if_neg (neg_branch hF al h).1, if_pos (neg_branch hF al h).2]
  have e2 : ufunc1 chi.val al.val = Real.sinh (Real.sqrt (-al.val) * chi.val) / Real.sqrt (-al.val) := by
    simp [ufunc1, h, h.le]
  rw [e1, e2]; exact h1.mono hF (by linarith)

theorem near_ufunc2_neg :
    Near u (L + 2 + 4 * (Real.sqrt (-al.val) * |chi.val|))
      ((Real.cosh (Real.sqrt (-al.val) * chi.val) + 1) / -al.val) (ufunc2 chi al).val (ufunc2 chi.val al.val) := by
  have hL := hF.one_le
  have hy : |Real.sqrt (-al.val) * chi.val| = Real.sqrt (-al.val) * |chi.val| := by
    rw [abs_mul, abs_of_nonneg (Real.sqrt_nonneg _)]
  have hy0 : 0 ≤ Real.sqrt (-al.val) * |chi.val| := by positivity
  have h1 := (((Near.cosh hF (within_argN hF chi al) (two_eta hF)).near hF).sub hF
    ((Within.lit hF 1 (by norm_num)).near hF)).div hF (.ex (-al))
  rw [hy, Nat.cast_one, abs_one, abs_of_pos (Real.cosh_pos _)] at h1
  have hval : (-al).val = -al.val := rfl
  rw [hval, abs_of_pos (by linarith : 0 < -al.val)] at h1
  have e1 : ufunc2 chi al = (JFun.cosh (JFun.sqrt (-al) * chi) - ((1 : ℕ) : Rnd F)) / -al := by
    rw [ufunc2, if_neg (neg_branch hF al h).1, if_pos (neg_branch hF al h).2]
  have e2 : ufunc2 chi.val al.val = (Real.cosh (Real.sqrt (-al.val) * chi.val) - 1) / -al.val := by
    simp [ufunc2, h, h.le]
  rw [e1, e2]
  refine h1.mono hF ?_ le_rfl
  simp only [max_def]; split_ifs <;> linarith

theorem near_ufunc3_neg :
    Near u (L + 6 + 4 * (Real.sqrt (-al.val) * |chi.val|))
      ((Real.sqrt (-al.val) * |chi.val| + |Real.sinh (Real.sqrt (-al.val) * chi.val)|) / -al.val / Real.sqrt (-al.val))
      (ufunc3 chi al).val (ufunc3 chi.val al.val) := by
  have hL := hF.one_le
  have hs : 0 < Real.sqrt (-al.val) := Real.sqrt_pos.2 (by linarith)
  have hy : |Real.sqrt (-al.val) * chi.val| = Real.sqrt (-al.val) * |chi.val| := by
    rw [abs_mul, abs_of_nonneg (Real.sqrt_nonneg _)]
  have hy0 : 0 ≤ Real.sqrt (-al.val) * |chi.val| := by positivity
  have h1 := ((((within_argN hF chi al).near hF).sub hF
    ((Near.sinh hF (within_argN hF chi al) (two_eta hF)).near hF)).div hF (.ex al)).div hF ((Within.ex (-al)).sqrt hF)
  have hval : (-al).val = -al.val := rfl
  rw [hy, hval, abs_of_neg h, abs_of_pos hs] at h1
  have e1 : ufunc3 chi al = (JFun.sqrt (-al) * chi - JFun.sinh (JFun.sqrt (-al) * chi)) / al / JFun.sqrt (-al) := by
    rw [ufunc3, if_neg (neg_branch hF al h).1, if_pos (neg_branch hF al h).2]
  have e2 : ufunc3 chi.val al.val =
      (Real.sqrt (-al.val) * chi.val - Real.sinh (Real.sqrt (-al.val) * chi.val)) / al.val / Real.sqrt (-al.val) := by
    simp [ufunc3, h, h.le]
  rw [e1, e2]
  refine h1.mono hF ?_ le_rfl
  simp only [max_def]; split_ifs <;> linarith

theorem near_ufunc4_neg :
    Near u (L + 7 + 4 * (Real.sqrt (-al.val) * |chi.val|))
      ((-al.val * chi.val ^ 2 + 2 + 2 * Real.cosh (Real.sqrt (-al.val) * chi.val)) / (2 * al.val ^ 2))
      (ufunc4 chi al).val (ufunc4 chi.val al.val) := by
  have hL := hF.one_le
  have hne := h.ne
  have hy : |Real.sqrt (-al.val) * chi.val| = Real.sqrt (-al.val) * |chi.val| := by
    rw [abs_mul, abs_of_nonneg (Real.sqrt_nonneg _)]
  have hy0 : 0 ≤ Real.sqrt (-al.val) * |chi.val| := by positivity
  have h1 := (((((Within.ex al).mul hF ((Within.ex chi).sq hF)).near hF).sub hF
    ((Within.lit hF 2 (by norm_num)).near hF)).add hF (((Within.lit hF 2 (by norm_num)).near hF).mul hF
      ((Near.cosh hF (within_argN hF chi al) (two_eta hF)).near hF))).div hF
        ((Within.lit hF 2 (by norm_num)).mul hF ((Within.ex al).sq hF))
  rw [hy, Nat.cast_two, abs_two, abs_mul, abs_of_neg h, abs_of_nonneg (sq_nonneg chi.val),
    abs_of_pos (show 0 < 2 * al.val ^ 2 by positivity), abs_of_pos (Real.cosh_pos _)] at h1
  have e1 : ufunc4 chi al = (al * chi ^ 2 - ((2 : ℕ) : Rnd F) + ((2 : ℕ) : Rnd F) * JFun.cosh (JFun.sqrt (-al) * chi)) /
      (((2 : ℕ) : Rnd F) * al ^ 2) := by
    rw [ufunc4, if_neg (neg_branch hF al h).1, if_pos (neg_branch hF al h).2]
  have e2 : ufunc4 chi.val al.val =
      (al.val * chi.val ^ 2 - 2 + 2 * Real.cosh (Real.sqrt (-al.val) * chi.val)) / (2 * al.val ^ 2) := by
    simp [ufunc4, h, h.le]
  rw [e1, e2]
  refine h1.mono hF ?_ le_rfl
  simp only [max_def]; split_ifs <;> linarith

theorem near_ufunc5_neg :
    Near u (L + 10 + 4 * (Real.sqrt (-al.val) * |chi.val|))
      ((al.val ^ 2 * |chi.val| ^ 3 + 6 * -al.val * |chi.val| +
        6 * Real.sqrt (-al.val) * |Real.sinh (Real.sqrt (-al.val) * chi.val)|) / (6 * (-al.val) ^ 3))
      (ufunc5 chi al).val (ufunc5 chi.val al.val) := by
  have hL := hF.one_le
  have hs : 0 < Real.sqrt (-al.val) := Real.sqrt_pos.2 (by linarith)
  have hy : |Real.sqrt (-al.val) * chi.val| = Real.sqrt (-al.val) * |chi.val| := by
    rw [abs_mul, abs_of_nonneg (Real.sqrt_nonneg _)]
  have hy0 : 0 ≤ Real.sqrt (-al.val) * |chi.val| := by positivity
  have h1 := (((((((Within.ex al).sq hF).mul hF ((Within.ex chi).pow3 hF)).near hF).sub hF
    ((((Within.lit hF 6 (by norm_num)).mul hF (.ex al)).mul hF (.ex chi)).near hF)).sub hF
      ((((Within.lit hF 6 (by norm_num)).mul hF ((Within.ex (-al)).sqrt hF)).near hF).mul hF
        ((Near.sinh hF (within_argN hF chi al) (two_eta hF)).near hF))).div hF
          ((Within.lit hF 6 (by norm_num)).mul hF ((Within.ex al).pow3 hF)))
  have hval : (-al).val = -al.val := rfl
  rw [hval] at h1
  have e1 : ufunc5 chi al = (al ^ 2 * chi ^ 3 - ((6 : ℕ) : Rnd F) * al * chi -
      ((6 : ℕ) : Rnd F) * JFun.sqrt (-al) * JFun.sinh (JFun.sqrt (-al) * chi)) / (((6 : ℕ) : Rnd F) * al ^ 3) := by
    rw [ufunc5, if_neg (neg_branch hF al h).1, if_pos (neg_branch hF al h).2]
  have e2 : ufunc5 chi.val al.val = (al.val ^ 2 * chi.val ^ 3 - ((6 : ℕ) : ℝ) * al.val * chi.val -
      ((6 : ℕ) : ℝ) * Real.sqrt (-al.val) * Real.sinh (Real.sqrt (-al.val) * chi.val)) / (((6 : ℕ) : ℝ) * al.val ^ 3) := by
    simp [ufunc5, h, h.le]
  rw [e1, e2]
  refine h1.mono hF ?_ (le_of_eq ?_)
  · rw [hy]; simp only [max_def]; split_ifs <;> linarith
  · rw [abs_mul, abs_mul, abs_mul, abs_mul, abs_mul, abs_of_pos hs, abs_pow, abs_pow, abs_pow, abs_of_neg h]
    push_cast
    rw [abs_of_pos (by norm_num : (0 : ℝ) < 6)]
    ring

/-- Hyperbolas: one more rounding error per quarter of `y = √-α |χ|`, since the argument of `sinh` and `cosh` is rounded. -/
theorem C67_ufunc_hyperbolic (h100 : Real.sqrt (-al.val) * |chi.val| ≤ 200) :
    let b := -al.val
    let y := Real.sqrt b * |chi.val|
    let S := |Real.sinh (Real.sqrt b * chi.val)|
    let C := Real.cosh (Real.sqrt b * chi.val)
    |(ufunc0 chi al).val - ufunc0 chi.val al.val| ≤ gam u (L + 1 + 4 * y) * |ufunc0 chi.val al.val| ∧
    |(ufunc1 chi al).val - ufunc1 chi.val al.val| ≤ gam u (L + 4 + 4 * y) * |ufunc1 chi.val al.val| ∧
    |(ufunc2 chi al).val - ufunc2 chi.val al.val| ≤ gam u (L + 2 + 4 * y) * ((C + 1) / b) ∧
    |(ufunc3 chi al).val - ufunc3 chi.val al.val| ≤ gam u (L + 6 + 4 * y) * ((y + S) / b / Real.sqrt b) ∧
    |(ufunc4 chi al).val - ufunc4 chi.val al.val| ≤
      gam u (L + 7 + 4 * y) * ((b * chi.val ^ 2 + 2 + 2 * C) / (2 * al.val ^ 2)) ∧
    |(ufunc5 chi al).val - ufunc5 chi.val al.val| ≤
      gam u (L + 10 + 4 * y) * ((al.val ^ 2 * |chi.val| ^ 3 + 6 * b * |chi.val| + 6 * Real.sqrt b * S) / (6 * b ^ 3)) := by
  intro b y S C
  have h1 := hF.one_le
  have h2 := hF.le_hundred
  have hy0 : 0 ≤ y := by positivity
  have hy1 : y ≤ 200 := h100
  exact ⟨((within_ufunc0_neg hF chi al h).mono hF (by show L + 4 * y ≤ _; linarith)).bound hF (by linarith)
      (ku_lt hF (by linarith)),
    (within_ufunc1_neg hF chi al h).bound hF (by show 1 ≤ L + 4 + 4 * y; linarith) (ku_lt hF (by linarith)),
    (near_ufunc2_neg hF chi al h).bound hF (by show 1 ≤ L + 2 + 4 * y; linarith) (ku_lt hF (by linarith)),
    (near_ufunc3_neg hF chi al h).bound hF (by show 1 ≤ L + 6 + 4 * y; linarith) (ku_lt hF (by linarith)),
    (near_ufunc4_neg hF chi al h).bound hF (by show 1 ≤ L + 7 + 4 * y; linarith) (ku_lt hF (by linarith)),
    (near_ufunc5_neg hF chi al h).bound hF (by show 1 ≤ L + 10 + 4 * y; linarith) (ku_lt hF (by linarith))⟩
end hyperbolic

/-- Parabolas: full relative accuracy. -/
theorem C67_ufunc_parabolic (chi : Rnd F) :
    (ufunc0 chi (⟨0⟩ : Rnd F)).val = 1 ∧ (ufunc1 chi (⟨0⟩ : Rnd F)).val = chi.val ∧
    |(ufunc2 chi (⟨0⟩ : Rnd F)).val - ufunc2 chi.val 0| ≤ gam u 2 * |ufunc2 chi.val 0| ∧
    |(ufunc3 chi (⟨0⟩ : Rnd F)).val - ufunc3 chi.val 0| ≤ gam u 3 * |ufunc3 chi.val 0| ∧
    |(ufunc4 chi (⟨0⟩ : Rnd F)).val - ufunc4 chi.val 0| ≤ gam u 4 * |ufunc4 chi.val 0| ∧
    |(ufunc5 chi (⟨0⟩ : Rnd F)).val - ufunc5 chi.val 0| ≤ gam u 5 * |ufunc5 chi.val 0| := by
  have h0 := rd_zero hF
  have n1 : ¬ (JFun.lt ((0 : ℕ) : Rnd F) (⟨0⟩ : Rnd F) = true) := by rw [Rnd.lt_rnd, h0]; simp
  have n2 : ¬ (JFun.lt (⟨0⟩ : Rnd F) ((0 : ℕ) : Rnd F) = true) := by rw [Rnd.lt_rnd, h0]; simp
  have m1 : ¬ (JFun.lt ((0 : ℕ) : ℝ) (0 : ℝ) = true) := by simp
  have m2 : ¬ (JFun.lt (0 : ℝ) ((0 : ℕ) : ℝ) = true) := by simp
  refine ⟨?_, ?_, ?_, ?_, ?_, ?_⟩
  · rw [ufunc0, if_neg n1, if_neg n2]; rfl
  · rw [ufunc1, if_neg n1, if_neg n2]
  · rw [ufunc2, if_neg n1, if_neg n2, ufunc2, if_neg m1, if_neg m2]
    exact ((((Within.ex chi).sq hF).div hF (.lit hF 2 (by norm_num))).mono hF (by norm_num)).bound hF (by norm_num)
      (ku_lt hF (by norm_num))
  · rw [ufunc3, if_neg n1, if_neg n2, ufunc3, if_neg m1, if_neg m2]
    exact ((((Within.ex chi).pow3 hF).div hF (.lit hF 6 (by norm_num))).mono hF (by norm_num)).bound hF (by norm_num)
      (ku_lt hF (by norm_num))
  · rw [ufunc4, if_neg n1, if_neg n2, ufunc4, if_neg m1, if_neg m2]
    exact ((((Within.ex chi).pow4 hF).div hF (.lit hF 24 (by norm_num))).mono hF (by norm_num)).bound hF (by norm_num)
      (ku_lt hF (by norm_num))
  · rw [ufunc5, if_neg n1, if_neg n2, ufunc5, if_neg m1, if_neg m2]
    exact ((((Within.ex chi).pow5 hF).div hF (.lit hF 120 (by norm_num))).mono hF (by norm_num)).bound hF (by norm_num)
      (ku_lt hF (by norm_num))

end
end Adx
