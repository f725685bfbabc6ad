import Verif.Props.C67c
import Verif.Props.C68
import Verif.Props.C26
import Verif.Lemmas.Flow

/-! # C68: rounding errors of the universal functions, of the universal Kepler equation and of one `kepler` step

The computed reciprocal semimajor axis carries `κ` rounding errors; everything else follows from it. -/

namespace Adx
open Spec

/-- The four computed universal functions are within `k` rounding errors of `U_0 … U_3` at the exact reciprocal
semimajor axis, relative to magnitudes `m0 … m3`. -/
structure UBnd {F : Fp} (u k m0 m1 m2 m3 : ℝ) (chi a : Rnd F) (α : ℝ) : Prop where
  h0 : Near u k m0 (ufunc0 chi a).val (ufunc0 chi.val α)
  h1 : Near u k m1 (ufunc1 chi a).val (ufunc1 chi.val α)
  h2 : Near u k m2 (ufunc2 chi a).val (ufunc2 chi.val α)
  h3 : Near u k m3 (ufunc3 chi a).val (ufunc3 chi.val α)

section
variable {F : Fp} {u L : ℝ} (hF : StdModel F u L)
include hF

theorem rd_zero_std : F.rd 0 = 0 := by simpa using hF.lit 0 (by norm_num)

/-- Ellipse: with `y = √α |χ|`, the magnitudes are `1 + y`, `|χ|`, `(2 + y)/α` and `2|χ|/α`. -/
theorem ubnd_elliptic {chi a : Rnd F} {α κ : ℝ} (hα : 0 < α) (ha : Within u κ a.val α) :
    UBnd u (2 * κ + L + 6) (1 + Real.sqrt α * |chi.val|) |chi.val| ((2 + Real.sqrt α * |chi.val|) / α)
      (2 * |chi.val| / α) chi a α := by
  have hL := hF.one_le
  have hκ := ha.k_nonneg hF.u_pos hF.lt_one
  have hav : 0 < a.val := ha.pos_iff.2 hα
  have hq : 0 < Real.sqrt α := Real.sqrt_pos.2 hα
  have hsq : Real.sqrt α ^ 2 = α := Real.sq_sqrt hα.le
  have hw : Within u (κ / 2 + 1) (JFun.sqrt a).val (Real.sqrt α) := ha.sqrt hF
  have hy : Within u (κ / 2 + 2) (JFun.sqrt a * chi).val (Real.sqrt α * chi.val) :=
    (hw.mul hF (.ex chi)).mono hF (by linarith)
  have hya : |Real.sqrt α * chi.val| = Real.sqrt α * |chi.val| := by rw [abs_mul, abs_of_pos hq]
  have hc := Near.cos hF hy
  have hsn := Near.sin hF hy
  rw [hya] at hc hsn
  have c1 : JFun.lt ((0 : ℕ) : Rnd F) a = true := by
    simp only [Rnd.lt_rnd, Rnd.val_natCast, Nat.cast_zero, rd_zero_std hF, hav, decide_true]
  have c2 : JFun.lt ((0 : ℕ) : ℝ) α = true := by simp [hα]
  refine ⟨?_, ?_, ?_, ?_⟩
  · simp only [ufunc0, c1, c2, if_true]
    exact hc.mono hF (by linarith) le_rfl
  · simp only [ufunc1, c1, c2, if_true]
    refine (hsn.div hF hw).mono hF (by linarith) ?_
    rw [abs_of_pos hq]; field_simp; exact le_rfl
  · simp only [ufunc2, c1, c2, if_true]
    have h1 := ((((Within.lit hF 1 (by norm_num)).near hF).sub hF hc).div hF ha)
    refine h1.mono hF ?_ ?_
    · simp only [max_def]; split_ifs <;> linarith
    · rw [abs_of_pos hα, Nat.cast_one, abs_one]
      apply le_of_eq; ring
  · simp only [ufunc3, c1, c2, if_true]
    have h1 := (((hy.near hF).sub hF hsn).div hF ha).div hF hw
    refine h1.mono hF ?_ ?_
    · simp only [max_def]; split_ifs <;> linarith
    · rw [abs_of_pos hα, hya, abs_of_pos hq]
      apply le_of_eq; field_simp; ring

/-- Hyperbola: with `y = √(-α) |χ|`, the magnitudes are `cosh y`, `sinh y/√(-α)`, `(cosh y + 1)/(-α)` and
`(y + sinh y)/(-α)^(3/2)`. The number of rounding errors grows with `y`. -/
theorem ubnd_hyperbolic {chi a : Rnd F} {α κ : ℝ} (hα : α < 0) (ha : Within u κ a.val α)
    (hκ1 : (κ / 2 + 2) * eta u ≤ 1) :
    let w := Real.sqrt (-α)
    let y := w * |chi.val|
    UBnd u ((κ + 4) * y + 2 * κ + L + 7) (Real.cosh y) (Real.sinh y / w) ((Real.cosh y + 1) / -α)
      ((y + Real.sinh y) / -α / w) chi a α := by
  intro w y
  have hL := hF.one_le
  have hκ := ha.k_nonneg hF.u_pos hF.lt_one
  have hα' : 0 < -α := by linarith
  have han : Within u κ (-a).val (-α) := ha.neg
  have hav : 0 < (-a).val := han.pos_iff.2 hα'
  rw [Rnd.val_neg] at hav
  have hq : 0 < w := Real.sqrt_pos.2 hα'
  have hw : Within u (κ / 2 + 1) (JFun.sqrt (-a)).val w := han.sqrt hF
  have hy : Within u (κ / 2 + 2) (JFun.sqrt (-a) * chi).val (w * chi.val) :=
    (hw.mul hF (.ex chi)).mono hF (by linarith)
  have hya : |w * chi.val| = y := by rw [abs_mul, abs_of_pos hq]
  have hy0 : 0 ≤ y := by positivity
  have hc := Near.cosh hF hy hκ1
  have hsn := Near.sinh hF hy hκ1
  rw [hya] at hc hsn
  have hcv : Real.cosh (w * chi.val) = Real.cosh y := by rw [← hya, Real.cosh_abs]
  have hsv : |Real.sinh (w * chi.val)| = Real.sinh y := by rw [Real.abs_sinh, hya]
  have hyk : 0 ≤ (κ + 4) * y := by positivity
  have c1 : JFun.lt ((0 : ℕ) : Rnd F) a = false := by
    simp only [Rnd.lt_rnd, Rnd.val_natCast, Nat.cast_zero, rd_zero_std hF, decide_eq_false_iff_not]; linarith
  have c1' : JFun.lt a ((0 : ℕ) : Rnd F) = true := by
    simp only [Rnd.lt_rnd, Rnd.val_natCast, Nat.cast_zero, rd_zero_std hF, decide_eq_true_eq]; linarith
  have c2 : JFun.lt ((0 : ℕ) : ℝ) α = false := by simp [hα.le]
  have c2' : JFun.lt α ((0 : ℕ) : ℝ) = true := by simp [hα]
  have hcn := hc.near hF
  have hsnn := hsn.near hF
  rw [abs_of_pos (Real.cosh_pos _), hcv] at hcn
  rw [hsv] at hsnn
  have hcn' : Near u (2 * (κ / 2 + 2) * y + L) (Real.cosh y) (JFun.cosh (JFun.sqrt (-a) * chi)).val
      (Real.cosh (w * chi.val)) := by rw [hcv]; exact hcn
  refine ⟨?_, ?_, ?_, ?_⟩
  · simp only [ufunc0, c1, c2, c1', c2', if_true, Bool.false_eq_true, if_false]
    exact hcn'.mono hF (by linarith) le_rfl
  · simp only [ufunc1, c1, c2, c1', c2', if_true, Bool.false_eq_true, if_false]
    refine (hsnn.div hF hw).mono hF (by linarith) ?_
    rw [abs_of_pos hq]
  · simp only [ufunc2, c1, c2, c1', c2', if_true, Bool.false_eq_true, if_false]
    have h1 := ((hcn'.sub hF ((Within.lit hF 1 (by norm_num)).near hF)).div hF han)
    refine h1.mono hF ?_ ?_
    · simp only [max_def]; split_ifs <;> linarith
    · rw [abs_of_pos hα', Nat.cast_one, abs_one]
  · simp only [ufunc3, c1, c2, c1', c2', if_true, Bool.false_eq_true, if_false]
    have h1 := (((hy.near hF).sub hF hsnn).div hF ha).div hF hw
    refine h1.mono hF ?_ ?_
    · simp only [max_def]; split_ifs <;> linarith
    · rw [abs_of_neg hα, hya, abs_of_pos hq]

/-! ### The universal Kepler equation, the radius and the Lagrange coefficients -/

variable {K m0 m1 m2 m3 α a r0 s σ : ℝ} {chi al R0 S0 : Rnd F}

theorem near_kepler_uni (hU : UBnd u K m0 m1 m2 m3 chi al α) (hr : Within u (5 / 2) R0.val r0) (hr0 : 0 ≤ r0)
    (hσ : Near u 5 s S0.val σ) (t mu : Rnd F) :
    Near u (K + 9) (r0 * m1 + s * m2 + m3 + Real.sqrt mu.val * |t.val|) (kepler_equ_uni chi al R0 S0 t mu).val
      (kepler_equ_uni chi.val α r0 σ t.val mu.val) := by
  have hK := hU.h0.k0
  have hrn := hr.near hF
  rw [abs_of_nonneg hr0] at hrn
  have ht := (((Within.ex mu).sqrt hF).mul hF (.ex t)).near hF
  rw [abs_mul, abs_of_nonneg (Real.sqrt_nonneg _)] at ht
  refine (((((hrn.mul hF hU.h1).add hF (hσ.mul hF hU.h2)).add hF hU.h3).sub hF ht)).mono hF ?_ le_rfl
  simp only [max_def]; split_ifs <;> linarith

theorem near_dchi (hU : UBnd u K m0 m1 m2 m3 chi al α) (hr : Within u (5 / 2) R0.val r0) (hr0 : 0 ≤ r0)
    (hσ : Near u 5 s S0.val σ) :
    Near u (K + 8) (r0 * m0 + s * m1 + m2) (dchi chi al R0 S0).val (dchi chi.val α r0 σ) := by
  have hK := hU.h0.k0
  have hrn := hr.near hF
  rw [abs_of_nonneg hr0] at hrn
  refine (((hrn.mul hF hU.h0).add hF (hσ.mul hF hU.h1)).add hF hU.h2).mono hF ?_ le_rfl
  simp only [max_def]; split_ifs <;> linarith

theorem near_lagrange_F (hU : UBnd u K m0 m1 m2 m3 chi al α) (hr : Within u (5 / 2) R0.val r0) (hr0 : 0 ≤ r0) :
    Near u (K + 5) (1 + m2 / r0) (lagrange_F (ufunc2 chi al) R0).val (lagrange_F (ufunc2 chi.val α) r0) := by
  have hK := hU.h0.k0
  have h := ((Within.lit hF 1 (by norm_num)).near hF).sub hF (hU.h2.div hF hr)
  rw [Nat.cast_one, abs_one, abs_of_nonneg hr0] at h
  have e1 : lagrange_F (ufunc2 chi.val α) r0 = 1 - ufunc2 chi.val α / r0 := by simp [lagrange_F]
  rw [e1]
  refine h.mono hF ?_ le_rfl
  simp only [max_def]; split_ifs <;> linarith

theorem near_lagrange_G (hU : UBnd u K m0 m1 m2 m3 chi al α) (hr : Within u (5 / 2) R0.val r0) (hr0 : 0 ≤ r0)
    (hσ : Near u 5 s S0.val σ) (mu : Rnd F) :
    Near u (K + 9) ((r0 * m1 + s * m2) / Real.sqrt mu.val) (lagrange_G (ufunc1 chi al) (ufunc2 chi al) S0 R0 mu).val
      (lagrange_G (ufunc1 chi.val α) (ufunc2 chi.val α) σ r0 mu.val) := by
  have hK := hU.h0.k0
  have hrn := hr.near hF
  rw [abs_of_nonneg hr0] at hrn
  have h := ((hrn.mul hF hU.h1).add hF (hσ.mul hF hU.h2)).div hF ((Within.ex mu).sqrt hF)
  rw [abs_of_nonneg (Real.sqrt_nonneg _)] at h
  refine h.mono hF ?_ le_rfl
  simp only [max_def]; split_ifs <;> linarith

/-- Position components of one step. -/
theorem near_step_pos (hU : UBnd u K m0 m1 m2 m3 chi al α) (hr : Within u (5 / 2) R0.val r0) (hr0 : 0 ≤ r0)
    (hσ : Near u 5 s S0.val σ) (mu : Rnd F) (x y : Rnd F) :
    Near u (K + 11) ((1 + m2 / r0) * |x.val| + (r0 * m1 + s * m2) / Real.sqrt mu.val * |y.val|)
      (lagrange_F (ufunc2 chi al) R0 * x + lagrange_G (ufunc1 chi al) (ufunc2 chi al) S0 R0 mu * y).val
      (lagrange_F (ufunc2 chi.val α) r0 * x.val
        + lagrange_G (ufunc1 chi.val α) (ufunc2 chi.val α) σ r0 mu.val * y.val) := by
  have hK := hU.h0.k0
  refine (((near_lagrange_F hF hU hr hr0).mul hF (exN hF x)).add hF
    ((near_lagrange_G hF hU hr hr0 hσ mu).mul hF (exN hF y))).mono hF ?_ le_rfl
  simp only [max_def]; split_ifs <;> linarith

/-- Velocity components of one step; `kr` rounding errors in the radius. -/
theorem near_step_vel (hU : UBnd u K m0 m1 m2 m3 chi al α) (hr : Within u (5 / 2) R0.val r0) (hr0 : 0 ≤ r0)
    {R : Rnd F} {ρ kr : ℝ} (hR : Within u kr R.val ρ) (hρ : 0 ≤ ρ) (mu : Rnd F) (x y : Rnd F) :
    Near u (K + kr + 9) (Real.sqrt mu.val / ρ * m1 / r0 * |x.val| + (1 + m2 / ρ) * |y.val|)
      (lagrange_Ft (ufunc1 chi al) R R0 mu * x + lagrange_Gt (ufunc2 chi al) R * y).val
      (lagrange_Ft (ufunc1 chi.val α) ρ r0 mu.val * x.val + lagrange_Gt (ufunc2 chi.val α) ρ * y.val) := by
  have hK := hU.h0.k0
  have hkr := hR.k_nonneg hF.u_pos hF.lt_one
  have hsm : Within u (0 / 2 + 1) (-JFun.sqrt mu).val (-Real.sqrt mu.val) := ((Within.ex mu).sqrt hF).neg
  have h1 := ((((hsm.div hF hR).near hF).mul hF hU.h1).div hF hr).mul hF (exN hF x)
  rw [abs_div, abs_neg, abs_of_nonneg (Real.sqrt_nonneg _), abs_of_nonneg hρ, abs_of_nonneg hr0] at h1
  have h2 := (((Within.lit hF 1 (by norm_num)).near hF).sub hF (hU.h2.div hF hR)).mul hF (exN hF y)
  rw [Nat.cast_one, abs_one, abs_of_nonneg hρ] at h2
  have e1 : lagrange_Gt (ufunc2 chi.val α) ρ = 1 - ufunc2 chi.val α / ρ := by simp [lagrange_Gt]
  rw [e1]
  refine (h1.add hF h2).mono hF ?_ le_rfl
  simp only [max_def]; split_ifs <;> linarith

/-! ### The computed reciprocal semimajor axis -/

/-- `kepler`'s `alpha`; `c` is the condition number `(2/r + v²/mu) / |2/r - v²/mu|`. -/
theorem within_alpha (r v : V3 (Rnd F)) (mu : Rnd F) {c : ℝ} (hmu : 0 < mu.val)
    (h0 : alphaOf r.re v.re mu.val ≠ 0)
    (hc : 2 / V3.norm r.re + V3.norm v.re ^ 2 / mu.val ≤ c * |alphaOf r.re v.re mu.val|) (hs : 40 * c * u ≤ 1) :
    Within u (16 * c + 2) (((1 : ℕ) : Rnd F) / semimajor_axis (V3.norm r) (V3.norm v) mu).val
      (alphaOf r.re v.re mu.val) := by
  have e0 : alphaOf r.re v.re mu.val = 2 / V3.norm r.re - V3.norm v.re ^ 2 / mu.val := by
    simp [alphaOf, semimajor_axis]
  have hr := within_norm hF r
  have hv := within_norm hF v
  have h1 := (((Within.lit hF 2 (by norm_num)).div hF hr).near hF).sub hF ((((hv.sq hF).div hF (.ex mu))).near hF)
  rw [abs_div, abs_div, Nat.cast_two, abs_two, abs_of_nonneg (V3.norm_nonneg _),
    abs_of_nonneg (sq_nonneg _), abs_of_pos hmu] at h1
  rw [e0] at h0 hc ⊢
  have h2 := (h1.mono hF (j := 8) (by norm_num) hc).within hF (by norm_num) h0 le_rfl (by linarith)
  have h3 := (Within.lit hF 1 (by norm_num)).div hF ((Within.lit hF 1 (by norm_num)).div hF h2)
  rw [Nat.cast_one, one_div_one_div] at h3
  exact h3.mono hF (by linarith)

end

end Adx
