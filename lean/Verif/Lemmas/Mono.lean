import Verif.Lemmas.SqrtSq

/-! # Rounding is monotone -/

namespace Adx

theorem rne_mono {x y : ℝ} (h : x ≤ y) : rne x ≤ rne y := by
  by_contra hc
  push Not at hc
  have h1 : ((rne y : ℤ) : ℝ) + 1 ≤ rne x := by exact_mod_cast hc
  have h2 := (abs_le.1 (rne_err x)).2
  have h3 := (abs_le.1 (rne_err y)).1
  have h4 : x = y := by linarith
  rw [h4] at hc
  exact lt_irrefl _ hc

theorem rdB_zero (p : ℕ) : rdB p 0 = 0 := by
  have : rne (0 : ℝ) = 0 := by exact_mod_cast rne_intCast 0
  simp [rdB, this]

theorem rdB_nonneg (p : ℕ) {x : ℝ} (h : 0 ≤ x) : 0 ≤ rdB p x := by
  have h1 := (abs_le.1 (rdB_rel p x)).1
  rw [abs_of_nonneg h] at h1
  have h2 : (2 : ℝ) ^ (-(p : ℤ)) ≤ 1 := zpow_le_one_of_nonpos₀ (by norm_num) (by omega)
  nlinarith

theorem rdB_pos {p : ℕ} (hp : 1 ≤ p) {x : ℝ} (h : 0 < x) : 0 < rdB p x := by
  refine lt_of_lt_of_le ?_ (rdB_ge_zpow hp (k := Int.log 2 x) (by exact_mod_cast Int.zpow_log_le_self (b := 2) (by norm_num) h))
  positivity

/-- Rounding does not cross a power of two from below. -/
theorem rdB_le_zpow {p : ℕ} {x : ℝ} (hx : 0 < x) : rdB p x ≤ (2 : ℝ) ^ (Int.log 2 |x| + 1) := by
  set k := Int.log 2 |x| with hk
  have l2 : x < (2 : ℝ) ^ (k + 1) := by
    have := Int.lt_zpow_succ_log_self (b := 2) (by norm_num) |x|
    rw [abs_of_pos hx] at this
    rw [hk, abs_of_pos hx]; exact_mod_cast this
  have hU : ulpB p x = (2 : ℝ) ^ (k - (p - 1)) := rfl
  have hu := ulpB_pos p x
  have eP1 : (2 : ℝ) ^ (k + 1) = 2 ^ p * ulpB p x := by
    rw [hU, ← zpow_natCast, ← zpow_add₀ (by norm_num)]
    congr 1; ring
  have h2 : x / ulpB p x < 2 ^ p := by rw [div_lt_iff₀ hu, ← eP1]; exact l2
  have h3 := (abs_le.1 (rne_err (x / ulpB p x))).2
  have h4 : (rne (x / ulpB p x) : ℝ) < 2 ^ p + 1 := by linarith
  have h5 : rne (x / ulpB p x) < 2 ^ p + 1 := by exact_mod_cast h4
  have h6 : (rne (x / ulpB p x) : ℝ) ≤ 2 ^ p := by exact_mod_cast (by omega : rne (x / ulpB p x) ≤ 2 ^ p)
  rw [eP1, rdB]
  exact mul_le_mul_of_nonneg_right h6 hu.le

theorem rdB_mono {p : ℕ} (hp : 1 ≤ p) : Monotone (rdB p) := by
  have pos : ∀ x y : ℝ, 0 < x → x ≤ y → rdB p x ≤ rdB p y := by
    intro x y hx h
    have hy := hx.trans_le h
    have hl : Int.log 2 |x| ≤ Int.log 2 |y| := by
      rw [abs_of_pos hx, abs_of_pos hy]
      exact Int.log_mono_right hx h
    rcases hl.lt_or_eq with hl | hl
    · refine (rdB_le_zpow hx).trans ((zpow_le_zpow_right₀ (by norm_num) (show Int.log 2 |x| + 1 ≤ Int.log 2 |y| by omega)).trans ?_)
      refine rdB_ge_zpow hp ?_
      have := Int.zpow_log_le_self (b := 2) (r := |y|) (by norm_num) (abs_pos.2 hy.ne')
      rw [abs_of_pos hy] at this ⊢
      exact_mod_cast this
    · have hu : ulpB p x = ulpB p y := by unfold ulpB; rw [hl]
      rw [rdB, rdB, hu]
      refine mul_le_mul_of_nonneg_right ?_ (ulpB_pos p y).le
      exact_mod_cast rne_mono (div_le_div_of_nonneg_right h (ulpB_pos p y).le)
  intro x y h
  rcases lt_or_ge 0 x with hx | hx
  · exact pos x y hx h
  rcases lt_or_ge y 0 with hy | hy
  · have := pos (-y) (-x) (by linarith) (by linarith)
    rw [rdB_neg, rdB_neg] at this
    linarith
  · have h1 := rdB_nonneg p (neg_nonneg.2 hx)
    rw [rdB_neg] at h1
    exact (by linarith : rdB p x ≤ 0).trans (rdB_nonneg p hy)

theorem rdB_abs (p : ℕ) (x : ℝ) : rdB p |x| = |rdB p x| := by
  rcases le_total 0 x with h | h
  · rw [abs_of_nonneg h, abs_of_nonneg (rdB_nonneg p h)]
  · have := rdB_nonneg p (neg_nonneg.2 h)
    rw [abs_of_nonpos h, rdB_neg, abs_of_nonpos (by rw [rdB_neg] at this; linarith)]

theorem rdB_pos_iff {p : ℕ} (hp : 1 ≤ p) {x : ℝ} : 0 < rdB p x ↔ 0 < x := by
  refine ⟨fun h => ?_, rdB_pos hp⟩
  by_contra hc
  push Not at hc
  have := rdB_nonneg p (neg_nonneg.2 hc)
  rw [rdB_neg] at this
  linarith

theorem rdB_neg_iff {p : ℕ} (hp : 1 ≤ p) {x : ℝ} : rdB p x < 0 ↔ x < 0 := by
  have := rdB_pos_iff hp (x := -x)
  rw [rdB_neg, neg_pos, neg_pos] at this
  exact this

/-- The square root of a rounded square, for either sign. -/
theorem rdB_sqrt_sq_abs {p : ℕ} (hp : 2 ≤ p) {x : ℝ} (h : rdB p x = x) : rdB p (Real.sqrt (rdB p (x * x))) = |x| := by
  rcases lt_trichotomy x 0 with h0 | h0 | h0
  · have := rdB_sqrt_sq hp (x := -x) (by linarith) (by rw [rdB_neg, h])
    rw [neg_mul_neg] at this
    rw [this, abs_of_neg h0]
  · subst h0; simp [rdB_zero]
  · rw [rdB_sqrt_sq hp h0 h, abs_of_pos h0]

end Adx
