import Verif.Lemmas.Round32
import Verif.Lemmas.Exact
import Verif.Lemmas.Implicit
import Verif.Props.C49
import Verif.Props.C26

/-! # C60: single precision near the parabola

The universal functions are evaluated from their closed trigonometric and hyperbolic forms for every
`alpha ≠ 0`, however small. In binary32 `1 - cos y` and `y - sin y` are exactly zero once
`|y| ≤ 2^-12`, so `ufunc2` and `ufunc3` vanish there although the functions themselves are about
`chi^2/2` and `chi^3/6`. `kepler` then moves along the straight line `r0 + G v0`.
-/

set_option linter.unusedSectionVars false
set_option linter.unusedVariables false

namespace Adx
open V3

/-- Binary32 rounding, and elementary functions right on tiny arguments: what every library accurate to
half a unit in the last place returns there. -/
structure TinyOk (F : Fp) : Prop where
  rd : F.rd = rd32
  cos : ∀ y, |y| ≤ 1 / 2 ^ 12 → F.cos y = 1
  cosh : ∀ y, |y| ≤ 1 / 2 ^ 12 → F.cosh y = 1
  sin : ∀ y, Rep32 y → |y| ≤ 1 / 2 ^ 12 → F.sin y = y
  sinh : ∀ y, Rep32 y → |y| ≤ 1 / 2 ^ 12 → F.sinh y = y

theorem tinyOk_F32 : TinyOk F32 where
  rd := rfl
  cos _ h := rd32_cos_tiny h
  cosh _ h := rd32_cosh_tiny h
  sin _ hr h := rd32_sin_tiny hr h
  sinh _ hr h := rd32_sinh_tiny hr h

theorem rd32_abs (x : ℝ) : rd32 |x| = |rd32 x| := by
  rcases abs_cases x with ⟨h, hx⟩ | ⟨h, hx⟩
  · rw [h, abs_of_nonneg]
    rcases eq_or_lt_of_le hx with h0 | h0
    · rw [← h0, rd32_zero]
    · have := rd32_ge_rel (x := x) (b := x) h0.le le_rfl
      nlinarith
  · rw [h, rd32_neg, abs_of_nonpos]
    have := rd32_ge_rel (x := -x) (b := -x) (by linarith) le_rfl
    rw [rd32_neg] at this
    nlinarith

/-- The computed argument `sqrt(|alpha|) * chi` of the elementary functions. -/
noncomputable def arg32 (chi alpha : ℝ) : ℝ := rd32 (rd32 (Real.sqrt |alpha|) * chi)

section
variable {F : Fp} (hF : TinyOk F) {chi alpha : Rnd F} (ha : alpha.val ≠ 0)
  (hy : |arg32 chi.val alpha.val| ≤ 1 / 2 ^ 12)
include hF ha hy

/-- C60: all significance of `ufunc2` and `ufunc3` is lost when the computed `sqrt(|alpha|) chi` is at
most `2^-12`: they are exactly 0, `ufunc0` is exactly 1, and `ufunc1` is the rounded quotient. -/
theorem C60_lost :
    (ufunc0 chi alpha).val = 1 ∧ (ufunc2 chi alpha).val = 0 ∧ (ufunc3 chi alpha).val = 0 ∧
      (ufunc1 chi alpha).val = rd32 (arg32 chi.val alpha.val / rd32 (Real.sqrt |alpha.val|)) := by
  have hrep : Rep32 (arg32 chi.val alpha.val) := rd32_rep _
  have v0 : ((0 : ℕ) : Rnd F).val = 0 := by rw [Rnd.val_natCast, hF.rd, Nat.cast_zero, rd32_zero]
  have v1 : ((1 : ℕ) : Rnd F).val = 1 := by rw [Rnd.val_natCast, hF.rd, Nat.cast_one, rd32_one]
  rcases lt_or_gt_of_ne ha with h | h
  · have l1 : JFun.lt ((0 : ℕ) : Rnd F) alpha = false := by simp [v0, h.le]
    have l2 : JFun.lt alpha ((0 : ℕ) : Rnd F) = true := by simp [v0, h]
    have hs : (JFun.sqrt (-alpha) : Rnd F).val = rd32 (Real.sqrt |alpha.val|) := by
      rw [abs_of_neg h]; show F.rd _ = _; rw [hF.rd]; rfl
    have hm : (JFun.sqrt (-alpha) * chi : Rnd F).val = arg32 chi.val alpha.val := by
      rw [Rnd.val_mul, hs, hF.rd]; rfl
    have hc : (JFun.cosh (JFun.sqrt (-alpha) * chi) : Rnd F).val = 1 := by
      show F.cosh (JFun.sqrt (-alpha) * chi : Rnd F).val = 1
      rw [hm, hF.cosh _ hy]
    have hsn : (JFun.sinh (JFun.sqrt (-alpha) * chi) : Rnd F).val = arg32 chi.val alpha.val := by
      show F.sinh (JFun.sqrt (-alpha) * chi : Rnd F).val = _
      rw [hm, hF.sinh _ hrep hy]
    refine ⟨?_, ?_, ?_, ?_⟩
    · simp only [ufunc0, l1, l2, if_true, Bool.false_eq_true, if_false, hc]
    · simp only [ufunc2, l1, l2, if_true, Bool.false_eq_true, if_false, Rnd.val_div, Rnd.val_sub, hc, v1,
        hF.rd, sub_self, rd32_zero, zero_div]
    · simp only [ufunc3, l1, l2, if_true, Bool.false_eq_true, if_false, Rnd.val_div, Rnd.val_sub, hsn, hm,
        hF.rd, sub_self, rd32_zero, zero_div]
    · simp only [ufunc1, l1, l2, if_true, Bool.false_eq_true, if_false, Rnd.val_div, hsn, hs, hF.rd]
  · have l1 : JFun.lt ((0 : ℕ) : Rnd F) alpha = true := by simp [v0, h]
    have hs : (JFun.sqrt alpha : Rnd F).val = rd32 (Real.sqrt |alpha.val|) := by
      rw [abs_of_pos h]; show F.rd _ = _; rw [hF.rd]
    have hm : (JFun.sqrt alpha * chi : Rnd F).val = arg32 chi.val alpha.val := by
      rw [Rnd.val_mul, hs, hF.rd]; rfl
    have hc : (JFun.cos (JFun.sqrt alpha * chi) : Rnd F).val = 1 := by
      rw [Rnd.val_cos, hm, hF.cos _ hy]
    have hsn : (JFun.sin (JFun.sqrt alpha * chi) : Rnd F).val = arg32 chi.val alpha.val := by
      rw [Rnd.val_sin, hm, hF.sin _ hrep hy]
    refine ⟨?_, ?_, ?_, ?_⟩
    · simp only [ufunc0, l1, if_true, hc]
    · simp only [ufunc2, l1, if_true, Rnd.val_div, Rnd.val_sub, hc, v1, hF.rd, sub_self, rd32_zero,
        zero_div]
    · simp only [ufunc3, l1, if_true, Rnd.val_div, Rnd.val_sub, hsn, hm, hF.rd, sub_self, rd32_zero,
        zero_div]
    · simp only [ufunc1, l1, if_true, Rnd.val_div, hsn, hs, hF.rd]

/-- C60: there the row computed by `kepler` is the straight line: the Lagrange coefficients `F` and
`Gdot` are exactly 1, so every component of the position is that of `r0 + G v0`, rounded. -/
theorem C60_straight_line (r0 sigma0 mu : Rnd F) (r v : V3 (Rnd F))
    (hr : Rep32 r.x.val ∧ Rep32 r.y.val ∧ Rep32 r.z.val)
    (hv : Rep32 v.x.val ∧ Rep32 v.y.val ∧ Rep32 v.z.val) :
    keplerStep chi alpha r0 sigma0 r v mu
      = (r + lagrange_G (ufunc1 chi alpha) (ufunc2 chi alpha) sigma0 r0 mu • v,
         lagrange_Ft (ufunc1 chi alpha)
          (equ_of_orb_uvi (ufunc0 chi alpha) (ufunc1 chi alpha) (ufunc2 chi alpha) r0 sigma0) r0 mu • r
          + v) := by
  obtain ⟨h0, h2, h3, h1⟩ := C60_lost hF ha hy
  have v1 : ((1 : ℕ) : Rnd F).val = 1 := by rw [Rnd.val_natCast, hF.rd, Nat.cast_one, rd32_one]
  have hFF : ∀ q : Rnd F, (((1 : ℕ) : Rnd F) - ufunc2 chi alpha / q) = ⟨1⟩ := fun q => by
    apply Rnd.ext
    rw [Rnd.val_sub, Rnd.val_div, h2, v1, hF.rd, zero_div, rd32_zero, sub_zero, rd32_one]
  have hone : ∀ x : Rnd F, Rep32 x.val → (⟨1⟩ : Rnd F) * x = x := fun x hx => by
    apply Rnd.ext
    rw [Rnd.val_mul, one_mul, hF.rd, hx.rd]
  have hvec : ∀ w : V3 (Rnd F), (Rep32 w.x.val ∧ Rep32 w.y.val ∧ Rep32 w.z.val) →
      (⟨1⟩ : Rnd F) • w = w := fun w hw => by
    ext1
    · rw [V3.smul_x, hone _ hw.1]
    · rw [V3.smul_y, hone _ hw.2.1]
    · rw [V3.smul_z, hone _ hw.2.2]
  simp only [keplerStep, lagrange_prop, lagrange_F, lagrange_Gt, hFF]
  rw [hvec r hr, hvec v hv]

end

/-- The exact function: `U2 ≥ (9/20) chi^2` while `|alpha| chi^2 ≤ 1`. -/
theorem C60_exact_U2 {χ α : ℝ} (h : |α| * χ ^ 2 ≤ 1) : 9 / 20 * χ ^ 2 ≤ ufunc2 χ α := by
  have hpos : ∀ χ : ℝ, 0 ≤ χ → |α| * χ ^ 2 ≤ 1 → 9 / 20 * χ ^ 2 ≤ ufunc2 χ α := by
    intro χ hχ h
    rcases lt_trichotomy α 0 with ha | rfl | ha
    · simp only [ufunc2, Nat.cast_zero, lt_real, decide_eq_true_eq, ha, ha.le.not_gt, if_true, if_false,
        cosh_real, sqrt_real, Nat.cast_one]
      have hs : Real.sqrt (-α) ^ 2 = -α := Real.sq_sqrt (by linarith)
      rw [le_div_iff₀ (by linarith)]
      have e : Real.cosh (Real.sqrt (-α) * χ) = 1 + 2 * Real.sinh (Real.sqrt (-α) * χ / 2) ^ 2 := by
        have h1 := Real.cosh_two_mul (Real.sqrt (-α) * χ / 2)
        have h2 := Real.cosh_sq (Real.sqrt (-α) * χ / 2)
        rw [show 2 * (Real.sqrt (-α) * χ / 2) = Real.sqrt (-α) * χ by ring] at h1
        linarith
      have h3 : Real.sqrt (-α) * χ / 2 ≤ Real.sinh (Real.sqrt (-α) * χ / 2) :=
        Real.self_le_sinh_iff.2 (by positivity)
      have h4 := pow_le_pow_left₀ (by positivity) h3 2
      have h5 : (Real.sqrt (-α) * χ / 2) ^ 2 = -α * χ ^ 2 / 4 := by rw [div_pow, mul_pow, hs]; norm_num
      rw [e]
      nlinarith [mul_nonneg (neg_nonneg.2 ha.le) (sq_nonneg χ)]
    · simp only [ufunc2, Nat.cast_zero, lt_real, lt_irrefl, decide_false, Bool.false_eq_true, if_false]
      push_cast
      nlinarith [sq_nonneg χ]
    · simp only [ufunc2, Nat.cast_zero, lt_real, decide_eq_true_eq, ha, if_true,
        cos_real, sqrt_real, Nat.cast_one]
      have hs : Real.sqrt α ^ 2 = α := Real.sq_sqrt ha.le
      rw [le_div_iff₀ ha]
      rw [abs_of_pos ha] at h
      set y := Real.sqrt α * χ with hy
      have hy2 : y ^ 2 = α * χ ^ 2 := by rw [hy, mul_pow, hs]
      have hy0 : 0 ≤ y := by positivity
      rcases eq_or_lt_of_le hy0 with h00 | h00
      · rw [← h00, Real.cos_zero]; rw [← h00] at hy2; nlinarith
      have e : Real.cos y = 1 - 2 * Real.sin (y / 2) ^ 2 := by
        have h1 := Real.cos_two_mul (y / 2)
        have h2 := Real.sin_sq_add_cos_sq (y / 2)
        rw [show 2 * (y / 2) = y by ring] at h1
        linarith
      have h3 := Real.sin_gt_sub_cube (x := y / 2) (by linarith)
      have h4 : 19 / 20 * (y / 2) ≤ Real.sin (y / 2) := by
        have : (y / 2) ^ 3 / 6 ≤ (y / 2) / 20 := by nlinarith
        linarith
      have h5 := pow_le_pow_left₀ (by positivity) h4 2
      rw [e]
      nlinarith
  rcases le_total 0 χ with h0 | h0
  · exact hpos χ h0 h
  · have h1 := hpos (-χ) (by linarith) (by rwa [neg_sq])
    have h2 := (C08_parity χ α).2.2.1
    rw [neg_sq] at h1
    rw [← h2]; exact h1

theorem ulp32_scale (k : ℤ) {x : ℝ} (hx : x ≠ 0) : ulp32 ((2 : ℝ) ^ k * x) = (2 : ℝ) ^ k * ulp32 x := by
  have hb := ulp32_bounds hx
  have hk : (0 : ℝ) < (2 : ℝ) ^ k := by positivity
  have e23 : (2 : ℝ) ^ (Int.log 2 |x| + k) = 2 ^ k * (2 ^ 23 * ulp32 x) := by
    rw [ulp32, show (2 : ℝ) ^ 23 = (2 : ℝ) ^ (23 : ℤ) by norm_num, ← zpow_add₀ (by norm_num),
      ← zpow_add₀ (by norm_num)]
    congr 1; ring
  have e24 : (2 : ℝ) ^ (Int.log 2 |x| + k + 1) = 2 ^ k * (2 ^ 24 * ulp32 x) := by
    rw [zpow_add₀ (by norm_num), e23]; norm_num; ring
  have h := ulp32_eq (x := (2 : ℝ) ^ k * |x|) (n := Int.log 2 |x| + k)
    (by rw [e23]; exact mul_le_mul_of_nonneg_left hb.1 hk.le)
    (by rw [e24]; exact mul_lt_mul_of_pos_left hb.2 hk)
  have : ulp32 ((2 : ℝ) ^ k * x) = ulp32 ((2 : ℝ) ^ k * |x|) := by
    rw [ulp32, ulp32, abs_mul, abs_mul, abs_abs]
  rw [this, h, ulp32, ← zpow_add₀ (by norm_num)]
  congr 1; ring

theorem rd32_scale (k : ℤ) (x : ℝ) : rd32 ((2 : ℝ) ^ k * x) = (2 : ℝ) ^ k * rd32 x := by
  rcases eq_or_ne x 0 with rfl | hx
  · rw [mul_zero, rd32_zero, mul_zero]
  · have hk : (2 : ℝ) ^ k ≠ 0 := by positivity
    rw [rd32, rd32, ulp32_scale k hx, mul_div_mul_left _ _ hk]; ring

theorem rd32_pow2 (k : ℤ) : rd32 ((2 : ℝ) ^ k) = (2 : ℝ) ^ k :=
  Rep32.rd ⟨1, k, by norm_num, by simp⟩

section Witness
variable {F : Fp}

/-- The state of the witness: `r = (1,0,0)`, `v = (0,1,0)`, `mu = 1/2 + 2^-24`, a slightly elliptic orbit
at its periapsis. -/
noncomputable abbrev wR : V3 (Rnd F) := ⟨⟨1⟩, ⟨0⟩, ⟨0⟩⟩
noncomputable abbrev wV : V3 (Rnd F) := ⟨⟨0⟩, ⟨1⟩, ⟨0⟩⟩
noncomputable abbrev wMu : ℝ := 1 / 2 + 1 / 2 ^ 24

theorem w_ratio : rd32 (1 / wMu) = 2 - (2 : ℝ) ^ (-22 : ℤ) := by
  have hr : Rep32 (2 - (2 : ℝ) ^ (-22 : ℤ)) := ⟨2 ^ 24 - 2, -23, by norm_num, by norm_num⟩
  have hu : ulp32 (2 - (2 : ℝ) ^ (-22 : ℤ)) = (2 : ℝ) ^ (-23 : ℤ) :=
    ulp32_eq (n := 0) (by norm_num) (by norm_num)
  have := rd32_absorb hr (by norm_num) (t := 1 / wMu - (2 - (2 : ℝ) ^ (-22 : ℤ)))
    (by unfold wMu; norm_num) (by rw [hu]; unfold wMu; norm_num)
  rwa [add_sub_cancel] at this

variable (hF : TinyOk F)
include hF

theorem natF (n : ℕ) (h : n ≤ 2 ^ 24) : ((n : ℕ) : Rnd F).val = n := by
  rw [Rnd.val_natCast, hF.rd]
  have := (rep_int (n : ℤ) (by rw [abs_of_nonneg (by positivity)]; exact_mod_cast h)).rd
  simpa using this

theorem w_normR : V3.norm (wR : V3 (Rnd F)) = ⟨1⟩ := by
  apply Rnd.ext
  show F.rd (Real.sqrt (F.rd (F.rd (F.rd (1 * 1) + F.rd (0 * 0)) + F.rd (0 * 0)))) = 1
  simp only [hF.rd, mul_one, mul_zero, rd32_zero, add_zero, rd32_one, Real.sqrt_one]

theorem w_normV : V3.norm (wV : V3 (Rnd F)) = ⟨1⟩ := by
  apply Rnd.ext
  show F.rd (Real.sqrt (F.rd (F.rd (F.rd (0 * 0) + F.rd (1 * 1)) + F.rd (0 * 0)))) = 1
  simp only [hF.rd, mul_one, mul_zero, rd32_zero, add_zero, zero_add, rd32_one, Real.sqrt_one]

theorem w_sigma : sigma_fn (wR : V3 (Rnd F)) wV ⟨wMu⟩ = ⟨0⟩ := by
  apply Rnd.ext
  show F.rd (F.rd (F.rd (F.rd (1 * 0) + F.rd (0 * 1)) + F.rd (0 * 0)) / _) = 0
  simp only [hF.rd, mul_zero, mul_one, rd32_zero, add_zero, zero_div]

theorem w_alpha : (((1 : ℕ) : Rnd F) / semimajor_axis (⟨1⟩ : Rnd F) ⟨1⟩ ⟨wMu⟩) = ⟨(2 : ℝ) ^ (-22 : ℤ)⟩ := by
  apply Rnd.ext
  have v1 := natF hF 1 (by norm_num)
  have v2 := natF hF 2 (by norm_num)
  simp only [semimajor_axis, Rnd.val_div, Rnd.val_sub, Rnd.val_sq, v1, v2, hF.rd]
  simp only [Nat.cast_one, Nat.cast_ofNat, div_one, mul_one, rd32_one, rd32_two]
  rw [w_ratio, sub_sub_cancel, rd32_pow2]
  simp only [one_div, ← zpow_neg, rd32_pow2, neg_neg]

theorem w_sqrt : Real.sqrt |(2 : ℝ) ^ (-22 : ℤ)| = (2 : ℝ) ^ (-11 : ℤ) := by
  rw [abs_of_pos (by positivity), show (2 : ℝ) ^ (-22 : ℤ) = ((2 : ℝ) ^ (-11 : ℤ)) ^ 2 by norm_num,
    Real.sqrt_sq (by positivity)]

theorem w_arg (c : ℝ) : arg32 c ((2 : ℝ) ^ (-22 : ℤ)) = (2 : ℝ) ^ (-11 : ℤ) * rd32 c := by
  rw [arg32, w_sqrt hF, rd32_pow2, rd32_scale]

theorem w_small {c : ℝ} (h : |c| ≤ 1 / 2) : |rd32 c| ≤ 1 / 2 := by
  have h1 := rd32_scale (-1) (2 * c)
  have h2 := rd32_abs_le_one (x := 2 * c) (by rw [abs_mul, abs_two]; linarith)
  rw [show (2 : ℝ) ^ (-1 : ℤ) * (2 * c) = c by norm_num; ring] at h1
  rw [h1, abs_mul]
  norm_num
  linarith

/-- One Newton step of the root search from any `|chi| ≤ 1/2`, `w` the computed `sqrt(mu) t`. -/
theorem w_newton {c t : Rnd F} (hc : |c.val| ≤ 1 / 2) :
    (newtonUni t (⟨(2 : ℝ) ^ (-22 : ℤ)⟩ : Rnd F) ⟨1⟩ ⟨0⟩ ⟨wMu⟩ c).val
      = rd32 (c.val - rd32 (rd32 c.val - rd32 (rd32 (Real.sqrt wMu) * t.val))) := by
  have hy : |arg32 c.val ((2 : ℝ) ^ (-22 : ℤ))| ≤ 1 / 2 ^ 12 := by
    rw [w_arg hF, abs_mul, abs_of_pos (by positivity)]
    have := w_small hF hc
    norm_num
    linarith
  obtain ⟨h0, h2, h3, h1⟩ := C60_lost hF (chi := c) (alpha := ⟨(2 : ℝ) ^ (-22 : ℤ)⟩) (by norm_num) hy
  have h1' : (ufunc1 c (⟨(2 : ℝ) ^ (-22 : ℤ)⟩ : Rnd F)).val = rd32 c.val := by
    rw [h1]
    show rd32 (arg32 c.val ((2 : ℝ) ^ (-22 : ℤ)) / rd32 (Real.sqrt |(2 : ℝ) ^ (-22 : ℤ)|)) = _
    rw [w_arg hF, w_sqrt hF, rd32_pow2, mul_div_cancel_left₀ _ (by positivity), rd32_idem]
  have hq : (JFun.sqrt (⟨wMu⟩ : Rnd F)).val = rd32 (Real.sqrt wMu) := by
    show F.rd _ = _; rw [hF.rd]
  simp only [newtonUni, kepler_equ_uni, dchi, equ_of_orb_uvi, Rnd.val_sub, Rnd.val_div, Rnd.val_add,
    Rnd.val_mul, h0, h2, h3, h1', hq, hF.rd, one_mul, mul_zero, zero_mul, add_zero, rd32_zero, rd32_one,
    rd32_idem, div_one]

theorem w_sqrtMu : 70 / 100 ≤ Real.sqrt wMu ∧ Real.sqrt wMu ≤ 71 / 100 :=
  ⟨Real.le_sqrt_of_sq_le (by unfold wMu; norm_num), Real.sqrt_le_iff.2 ⟨by norm_num, by unfold wMu; norm_num⟩⟩

theorem w_bound {t : ℝ} (ht : |t| ≤ 5 / 8) : |rd32 (rd32 (Real.sqrt wMu) * t)| ≤ 46 / 100 := by
  have h := w_sqrtMu hF
  have h1 := rd32_abs_le (x := Real.sqrt wMu) (b := 71 / 100) (by rw [abs_of_nonneg (by positivity)]; exact h.2)
  have h2 := rd32_abs_le (x := rd32 (Real.sqrt wMu) * t) (b := 71 / 100 * (1 + 1 / 2 ^ 24) * (5 / 8)) (by
    rw [abs_mul]; exact mul_le_mul h1 ht (abs_nonneg _) (by positivity))
  norm_num at h2 ⊢
  linarith

theorem w_iter {t : Rnd F} (ht : |t.val| ≤ 5 / 8) (k : ℕ) :
    |((newtonUni t (⟨(2 : ℝ) ^ (-22 : ℤ)⟩ : Rnd F) ⟨1⟩ ⟨0⟩ ⟨wMu⟩)^[k]
      (uniStart t ⟨(2 : ℝ) ^ (-22 : ℤ)⟩ ⟨wMu⟩)).val| ≤ 1 / 2 := by
  induction k with
  | zero =>
    simp only [Function.iterate_zero, id_eq]
    have e : (uniStart t (⟨(2 : ℝ) ^ (-22 : ℤ)⟩ : Rnd F) ⟨wMu⟩).val
        = rd32 (rd32 (rd32 (Real.sqrt wMu) * |(2 : ℝ) ^ (-22 : ℤ)|) * t.val) := by
      show F.rd (F.rd (F.rd (Real.sqrt wMu) * |(2 : ℝ) ^ (-22 : ℤ)|) * t.val) = _
      rw [hF.rd]
    rw [e, abs_of_pos (by positivity : (0:ℝ) < (2 : ℝ) ^ (-22 : ℤ)), mul_comm (rd32 (Real.sqrt wMu)), rd32_scale,
      mul_assoc, rd32_scale, rd32_idem, abs_mul, abs_of_pos (by positivity : (0:ℝ) < (2 : ℝ) ^ (-22 : ℤ))]
    have := w_bound hF ht
    generalize |rd32 (rd32 (Real.sqrt wMu) * t.val)| = q at this ⊢
    norm_num
    linarith
  | succ k ih =>
    rw [Function.iterate_succ_apply', w_newton hF ih]
    set c := ((newtonUni t (⟨(2 : ℝ) ^ (-22 : ℤ)⟩ : Rnd F) ⟨1⟩ ⟨0⟩ ⟨wMu⟩)^[k]
      (uniStart t ⟨(2 : ℝ) ^ (-22 : ℤ)⟩ ⟨wMu⟩)).val
    set w := rd32 (rd32 (Real.sqrt wMu) * t.val)
    have hw : |w| ≤ 46 / 100 := w_bound hF ht
    have h1 := rd32_rel c
    have h2 := rd32_rel (rd32 c - w)
    have h3 := w_small hF ih
    have h4 : |rd32 c - w| ≤ 1 := by rw [abs_le] at h3 hw ⊢; constructor <;> linarith
    apply w_small hF
    rw [abs_le] at h1 h2 hw ⊢
    have h5 : |c| / 2 ^ 24 ≤ 1 / 100 := by norm_num; linarith
    have h6 : |rd32 c - w| / 2 ^ 24 ≤ 1 / 100 := by norm_num; linarith
    constructor <;> linarith

/-- C60, the state `r = (1,0,0)`, `v = (0,1,0)`, `mu = 1/2 + 2^-24` and every time `|t| ≤ 5/8`: the `x`
coordinate returned by `kepler` in binary32 is exactly the initial one. -/
theorem C60_frozen {t : Rnd F} (ht : |t.val| ≤ 5 / 8) :
    ∃ rs vs, kepler [t] (wR : V3 (Rnd F)) wV ⟨wMu⟩ = some ([rs], [vs]) ∧ rs.x.val = 1 := by
  rw [kepler_eq_map]
  refine ⟨_, _, rfl, ?_⟩
  simp only [keplerRow, Rnd.item_rnd, w_normR hF, w_normV hF, w_sigma hF, w_alpha hF]
  obtain ⟨k, _, _, hk, _⟩ := C13_uni t (⟨(2 : ℝ) ^ (-22 : ℤ)⟩ : Rnd F) ⟨1⟩ ⟨0⟩ ⟨wMu⟩ defaultTol 50
  have hc : chiOf t (⟨(2 : ℝ) ^ (-22 : ℤ)⟩ : Rnd F) ⟨1⟩ ⟨0⟩ ⟨wMu⟩
      = (newtonUni t (⟨(2 : ℝ) ^ (-22 : ℤ)⟩ : Rnd F) ⟨1⟩ ⟨0⟩ ⟨wMu⟩)^[k]
      (uniStart t ⟨(2 : ℝ) ^ (-22 : ℤ)⟩ ⟨wMu⟩) := by
    rw [chiOf, hk]; rfl
  have hy : |arg32 (chiOf t (⟨(2 : ℝ) ^ (-22 : ℤ)⟩ : Rnd F) ⟨1⟩ ⟨0⟩ ⟨wMu⟩).val ((2 : ℝ) ^ (-22 : ℤ))|
      ≤ 1 / 2 ^ 12 := by
    rw [w_arg hF, abs_mul, abs_of_pos (by positivity), hc]
    have := w_small hF (w_iter hF ht k)
    norm_num at this ⊢
    linarith
  have r0 : Rep32 0 := ⟨0, 0, by norm_num, by simp⟩
  rw [C60_straight_line hF (by norm_num) hy ⟨1⟩ ⟨0⟩ ⟨wMu⟩ wR wV ⟨rep32_one, r0, r0⟩ ⟨r0, rep32_one, r0⟩]
  simp only [V3.add_x, V3.smul_x, Rnd.val_add, Rnd.val_mul, hF.rd, mul_zero, rd32_zero, add_zero, rd32_one]

end Witness

theorem U1_le_of_pos {χ α : ℝ} (hχ : 0 ≤ χ) (ha : 0 < α) : ufunc1 χ α ≤ χ := by
  simp only [ufunc1, Nat.cast_zero, lt_real, decide_eq_true_eq, ha, if_true, sin_real, sqrt_real]
  have hs : 0 < Real.sqrt α := Real.sqrt_pos.2 ha
  rw [div_le_iff₀ hs, mul_comm χ]
  exact Real.sin_le (by positivity)

theorem U3_le_of_pos {χ α : ℝ} (hχ : 0 < χ) (ha : 0 < α) : ufunc3 χ α ≤ χ ^ 3 / 6 := by
  simp only [ufunc3, Nat.cast_zero, lt_real, decide_eq_true_eq, ha, if_true, sin_real, sqrt_real]
  have hs : 0 < Real.sqrt α := Real.sqrt_pos.2 ha
  rw [div_le_iff₀ hs, div_le_iff₀ ha]
  have h := Real.sin_gt_sub_cube (x := Real.sqrt α * χ) (by positivity)
  have e : (Real.sqrt α * χ) ^ 3 / 6 = χ ^ 3 / 6 * Real.sqrt α * α := by
    have := Real.sq_sqrt ha.le
    rw [mul_pow, pow_succ, this]; ring
  linarith

theorem U1_ge_of_pos {χ α : ℝ} (hχ : 0 < χ) (ha : 0 < α) : χ - α * χ ^ 3 / 6 ≤ ufunc1 χ α := by
  simp only [ufunc1, Nat.cast_zero, lt_real, decide_eq_true_eq, ha, if_true, sin_real, sqrt_real]
  have hs : 0 < Real.sqrt α := Real.sqrt_pos.2 ha
  rw [le_div_iff₀ hs]
  have h := Real.sin_gt_sub_cube (x := Real.sqrt α * χ) (by positivity)
  have e : (Real.sqrt α * χ) ^ 3 / 6 = α * χ ^ 3 / 6 * Real.sqrt α := by
    have := Real.sq_sqrt ha.le
    rw [mul_pow, pow_succ, this]; ring
  linarith

theorem U3_nonneg_of_pos {χ α : ℝ} (hχ : 0 ≤ χ) (ha : 0 < α) : 0 ≤ ufunc3 χ α := by
  simp only [ufunc3, Nat.cast_zero, lt_real, decide_eq_true_eq, ha, if_true, sin_real, sqrt_real]
  have hs : 0 < Real.sqrt α := Real.sqrt_pos.2 ha
  have := Real.sin_le (x := Real.sqrt α * χ) (by positivity)
  exact div_nonneg (div_nonneg (by linarith) ha.le) hs.le

/-- C60: the exact propagation of the same state (its numbers are all binary32) to `t = 5/8` has
`x ≤ 0.93`, 7% away from the value 1 returned in single precision. -/
theorem C60_exact_x : (exactProp ⟨1, 0, 0⟩ ⟨0, 1, 0⟩ wMu (5 / 8)).1.x ≤ 93 / 100 := by
  have hmu : (0 : ℝ) < wMu := by unfold wMu; norm_num
  have hh : cross (⟨1, 0, 0⟩ : V3 ℝ) ⟨0, 1, 0⟩ ≠ ⟨0, 0, 0⟩ := fun h => by
    have := congrArg V3.z h
    simp at this
  have hn1 : V3.norm (⟨1, 0, 0⟩ : V3 ℝ) = 1 := by simp [V3.norm, dot]
  have hn2 : V3.norm (⟨0, 1, 0⟩ : V3 ℝ) = 1 := by simp [V3.norm, dot]
  have hs : sigma_fn (⟨1, 0, 0⟩ : V3 ℝ) ⟨0, 1, 0⟩ wMu = 0 := by simp [sigma_fn, dot]
  have ha : alphaOf ⟨1, 0, 0⟩ ⟨0, 1, 0⟩ wMu = 2 - 1 / wMu := by
    rw [alphaOf, hn1, hn2]
    simp only [semimajor_axis]
    push_cast
    rw [one_div_one_div]; ring
  have ha0 : (0 : ℝ) < 2 - 1 / wMu := by unfold wMu; norm_num
  have ha1 : (2 : ℝ) - 1 / wMu ≤ 1 / 10 := by unfold wMu; norm_num
  have hsq : 70 / 100 ≤ Real.sqrt wMu ∧ Real.sqrt wMu ≤ 71 / 100 := w_sqrtMu tinyOk_F32
  have hk := kepU_exactChi hmu hh (5 / 8)
  have hrad : ∀ x, 0 < radU (2 - 1 / wMu) 1 0 x := fun x => radU_pos one_pos (by nlinarith) x
  rw [exactProp, stepOf]
  set X := exactChi ⟨1, 0, 0⟩ ⟨0, 1, 0⟩ wMu (5 / 8) with hX
  rw [ha, hn1, hs] at hk ⊢
  set a := 2 - 1 / wMu with haa
  have hmono := strictMono_kepU hrad
  have lo : 2 / 5 ≤ X := by
    by_contra h
    push Not at h
    have := hmono h
    rw [hk] at this
    have e : kepU a 1 0 (2 / 5) = ufunc1 (2 / 5) a + ufunc3 (2 / 5) a := by
      rw [kepU, C07_ufunc1, C07_ufunc3]; ring
    rw [e] at this
    have h1 := U1_le_of_pos (χ := 2 / 5) (by norm_num) ha0
    have h2 := U3_le_of_pos (χ := 2 / 5) (by norm_num) ha0
    norm_num at h2
    linarith
  have hi : X ≤ 1 := by
    by_contra h
    push Not at h
    have := hmono h
    rw [hk] at this
    have e : kepU a 1 0 1 = ufunc1 1 a + ufunc3 1 a := by
      rw [kepU, C07_ufunc1, C07_ufunc3]; ring
    rw [e] at this
    have h1 := U1_ge_of_pos (χ := 1) (by norm_num) ha0
    have h2 := U3_nonneg_of_pos (χ := 1) (by norm_num) ha0
    rw [one_pow, mul_one] at h1
    clear_value a
    have h3 := hsq.2
    generalize Real.sqrt wMu = S at this h3
    generalize ufunc1 1 a = u at this h1
    generalize ufunc3 1 a = w at this h2
    linarith
  have hX2 : X ^ 2 ≤ 1 := by nlinarith
  have hU := C60_exact_U2 (χ := X) (α := a) (by
    rw [abs_of_pos ha0]
    calc a * X ^ 2 ≤ 1 / 10 * 1 := mul_le_mul ha1 hX2 (sq_nonneg _) (by norm_num)
      _ ≤ 1 := by norm_num)
  simp only [keplerStep, lagrange_prop, lagrange_F, V3.add_x, V3.smul_x]
  push_cast
  simp only [div_one, mul_one, mul_zero, add_zero]
  nlinarith

/-- C60: the witness in one statement, binary32 with correctly rounded elementary functions. -/
theorem C60_witness :
    (∃ rs vs, kepler [(⟨5 / 8⟩ : Rnd F32)] wR wV ⟨wMu⟩ = some ([rs], [vs]) ∧ rs.x.val = 1) ∧
      (exactProp ⟨1, 0, 0⟩ ⟨0, 1, 0⟩ wMu (5 / 8)).1.x ≤ 93 / 100 ∧
      Rep32 (5 / 8) ∧ Rep32 wMu :=
  ⟨C60_frozen tinyOk_F32 (by norm_num [abs_of_pos]), C60_exact_x, ⟨5, -3, by norm_num, by norm_num⟩,
    ⟨2 ^ 23 + 1, -24, by norm_num, by unfold wMu; norm_num⟩⟩

end Adx
