import Verif.Lemmas.RoundErr

/-! # Binary32 and binary64 satisfy the standard model -/

namespace Adx
open Spec

/-- Unit in the last place at `x` with `p` binary digits. -/
noncomputable def ulpB (p : ℕ) (x : ℝ) : ℝ := (2 : ℝ) ^ (Int.log 2 |x| - (p - 1))

/-- Rounding to nearest, ties to even, with `p` binary digits and unbounded exponent. -/
noncomputable def rdB (p : ℕ) (x : ℝ) : ℝ := rne (x / ulpB p x) * ulpB p x

theorem rdB_24 (x : ℝ) : rdB 24 x = rd32 x := by
  have : ulpB 24 x = ulp32 x := by
    unfold ulpB ulp32
    norm_num
  rw [rdB, rd32, this]

theorem rdB_rel (p : ℕ) (x : ℝ) : |rdB p x - x| ≤ (2 : ℝ) ^ (-(p : ℤ)) * |x| := by
  have hu : 0 < ulpB p x := by unfold ulpB; positivity
  have h := rne_err (x / ulpB p x)
  have e1 : rdB p x - x = ((rne (x / ulpB p x) : ℝ) - x / ulpB p x) * ulpB p x := by
    unfold rdB; field_simp
  rcases eq_or_ne x 0 with rfl | hx
  · have : rne (0 : ℝ) = 0 := by exact_mod_cast rne_intCast 0
    simp [rdB, this]
  rw [e1, abs_mul, abs_of_pos hu]
  have h0 : 0 < |x| := abs_pos.2 hx
  have h1 := Int.zpow_log_le_self (b := 2) (r := |x|) (by norm_num) h0
  have h2 : (2 : ℝ) ^ (-(p : ℤ)) * (2 : ℝ) ^ (Int.log 2 |x|) = 1 / 2 * ulpB p x := by
    unfold ulpB
    rw [show (1 : ℝ) / 2 = (2 : ℝ) ^ (-1 : ℤ) by norm_num, ← zpow_add₀ (by norm_num), ← zpow_add₀ (by norm_num)]
    congr 1; ring
  calc _ ≤ 1 / 2 * ulpB p x := by gcongr
    _ = (2 : ℝ) ^ (-(p : ℤ)) * (2 : ℝ) ^ (Int.log 2 |x|) := h2.symm
    _ ≤ _ := by
        gcongr
        exact_mod_cast h1

/-- Integers below `2^p` are exact. -/
theorem rdB_nat (p n : ℕ) (hn : n < 2 ^ p) : rdB p n = n := by
  rcases Nat.eq_zero_or_pos n with rfl | h0
  · have : rne (0 : ℝ) = 0 := by exact_mod_cast rne_intCast 0
    simp [rdB, this]
  have hn0 : (0 : ℝ) < n := by exact_mod_cast h0
  have hu : 0 < ulpB p n := by unfold ulpB; positivity
  have hl : Int.log 2 |(n : ℝ)| < p := by
    refine (Int.lt_zpow_iff_log_lt (b := 2) (by norm_num) (abs_pos.2 hn0.ne')).1 ?_
    rw [Nat.abs_cast, zpow_natCast]
    exact_mod_cast hn
  obtain ⟨j, hj⟩ := Int.le.dest (show Int.log 2 |(n : ℝ)| ≤ (p : ℤ) - 1 by omega)
  have e : ulpB p n = ((2 : ℝ) ^ j)⁻¹ := by
    unfold ulpB
    rw [← hj, show Int.log 2 |(n : ℝ)| - (Int.log 2 |(n : ℝ)| + (j : ℤ)) = -(j : ℤ) by ring, zpow_neg, zpow_natCast]
  have e2 : (n : ℝ) / ulpB p n = ((n * 2 ^ j : ℤ) : ℝ) := by
    rw [e, div_inv_eq_mul]; push_cast; ring
  rw [rdB, e2, rne_intCast, e]
  push_cast
  field_simp

/-- Arithmetic with `p` binary digits and correctly rounded elementary functions. -/
noncomputable def FB (p : ℕ) : Fp where
  rd := rdB p
  sin x := rdB p (Real.sin x)
  cos x := rdB p (Real.cos x)
  sinh x := rdB p (Real.sinh x)
  cosh x := rdB p (Real.cosh x)
  log x := rdB p (Real.log x)
  cbrt x := rdB p (realCbrt x)
  arccos x := rdB p (Real.arccos x)
  arctan2 y x := rdB p (Complex.arg ⟨x, y⟩)

/-- Binary64. -/
noncomputable abbrev F64 : Fp := FB 53

theorem FB_24 : FB 24 = F32 := by
  have h : rdB 24 = rd32 := funext rdB_24
  simp only [FB, F32, h]

theorem stdModel_FB (p : ℕ) (hp : 10 ≤ p) : StdModel (FB p) ((2 : ℝ) ^ (-(p : ℤ))) 1 := by
  have hu : (0 : ℝ) < (2 : ℝ) ^ (-(p : ℤ)) := by positivity
  have hs : (2 : ℝ) ^ (-(p : ℤ)) ≤ 1 / 1000 := by
    calc (2 : ℝ) ^ (-(p : ℤ)) ≤ (2 : ℝ) ^ (-10 : ℤ) := zpow_le_zpow_right₀ (by norm_num) (by omega)
      _ ≤ _ := by norm_num
  have hw : ∀ x, Within ((2 : ℝ) ^ (-(p : ℤ))) 1 (rdB p x) x := fun x =>
    within_of_rel hu (lt_of_le_of_lt hs (by norm_num)) (rdB_rel p x)
  refine ⟨hu, hs, le_rfl, by norm_num, rdB_rel p, ?_, fun x => hw _, fun x => hw _, fun x => hw _, fun x => hw _,
    fun x => hw _, fun x => hw _, fun x => hw _, fun y x => hw _⟩
  intro n hn
  refine rdB_nat p n (lt_of_le_of_lt hn ?_)
  calc 1000 < 2 ^ 10 := by norm_num
    _ ≤ 2 ^ p := Nat.pow_le_pow_right (by norm_num) hp

theorem stdModel_F64 : StdModel F64 ((2 : ℝ) ^ (-53 : ℤ)) 1 := stdModel_FB 53 (by norm_num)

theorem stdModel_F32 : StdModel F32 ((2 : ℝ) ^ (-24 : ℤ)) 1 := FB_24 ▸ stdModel_FB 24 (by norm_num)

end Adx
