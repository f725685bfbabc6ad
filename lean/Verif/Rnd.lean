import Verif.Num
import Mathlib.Data.Int.Log
import Mathlib.Algebra.Order.Floor.Ring
import Mathlib.Data.Int.Interval

/-!
# Arithmetic with rounding

`Rnd F` is the type of real numbers where every operation returns the *rounded* exact result, with the
rounding function (and the elementary functions, which no floating-point library rounds correctly)
given by the parameter `F`. `F32` is binary32: 24-bit significand, round to nearest, ties to even.
Simplifications: the exponent range is unbounded (no overflow, underflow, infinities or NaN; those are
the subject of `Verif/XR.lean`) and there are no signed zeros.
-/

namespace Adx

/-- A rounding function together with the elementary functions of the target. -/
structure Fp where
  /-- the rounding applied to the exact result of `+ - * / sqrt` and to literals -/
  rd : ℝ → ℝ
  /-- computed sine -/
  sin : ℝ → ℝ
  /-- computed cosine -/
  cos : ℝ → ℝ
  /-- computed hyperbolic sine -/
  sinh : ℝ → ℝ
  /-- computed hyperbolic cosine -/
  cosh : ℝ → ℝ
  /-- computed logarithm -/
  log : ℝ → ℝ
  /-- computed cube root -/
  cbrt : ℝ → ℝ
  /-- computed inverse cosine -/
  arccos : ℝ → ℝ
  /-- computed two-argument inverse tangent -/
  arctan2 : ℝ → ℝ → ℝ

/-- A number of the rounded arithmetic `F`. -/
structure Rnd (F : Fp) where
  /-- the real number represented -/
  val : ℝ

namespace Rnd
variable {F : Fp}

@[ext] theorem ext {x y : Rnd F} (h : x.val = y.val) : x = y := by
  cases x; cases y; simp_all

instance : Add (Rnd F) := ⟨fun x y => ⟨F.rd (x.val + y.val)⟩⟩
instance : Sub (Rnd F) := ⟨fun x y => ⟨F.rd (x.val - y.val)⟩⟩
instance : Mul (Rnd F) := ⟨fun x y => ⟨F.rd (x.val * y.val)⟩⟩
noncomputable instance : Div (Rnd F) := ⟨fun x y => ⟨F.rd (x.val / y.val)⟩⟩
instance : Neg (Rnd F) := ⟨fun x => ⟨-x.val⟩⟩
instance : NatCast (Rnd F) := ⟨fun n => ⟨F.rd n⟩⟩
/-- `x**n` by repeated multiplication (`x**2 = x*x`, as `lax.integer_pow` computes it) -/
def powNat (x : Rnd F) : ℕ → Rnd F
  | 0 => ((1 : ℕ) : Rnd F)
  | 1 => x
  | n + 2 => powNat x (n + 1) * x
instance : Pow (Rnd F) ℕ := ⟨powNat⟩
noncomputable instance : JFun (Rnd F) where
  pi := ⟨F.rd Real.pi⟩
  sqrt x := ⟨F.rd (Real.sqrt x.val)⟩
  cbrt x := ⟨F.cbrt x.val⟩
  sin x := ⟨F.sin x.val⟩
  cos x := ⟨F.cos x.val⟩
  sinh x := ⟨F.sinh x.val⟩
  cosh x := ⟨F.cosh x.val⟩
  log x := ⟨F.log x.val⟩
  arccos x := ⟨F.arccos x.val⟩
  arctan2 y x := ⟨F.arctan2 y.val x.val⟩
  abs x := ⟨|x.val|⟩
  maximum x y := ⟨max x.val y.val⟩
  floor x := ⟨⌊x.val⌋⟩
  onesLike _ := ⟨1⟩
  item x := x
  lt x y := decide (x.val < y.val)

variable (x y : Rnd F)
@[simp] theorem val_add : (x + y).val = F.rd (x.val + y.val) := rfl
@[simp] theorem val_sub : (x - y).val = F.rd (x.val - y.val) := rfl
@[simp] theorem val_mul : (x * y).val = F.rd (x.val * y.val) := rfl
@[simp] theorem val_div : (x / y).val = F.rd (x.val / y.val) := rfl
@[simp] theorem val_neg : (-x).val = -x.val := rfl
@[simp] theorem val_natCast (n : ℕ) : ((n : Rnd F)).val = F.rd n := rfl
@[simp] theorem val_sq : (x ^ 2).val = F.rd (x.val * x.val) := rfl
@[simp] theorem val_sin : (JFun.sin x).val = F.sin x.val := rfl
@[simp] theorem val_cos : (JFun.cos x).val = F.cos x.val := rfl
@[simp] theorem val_abs : (JFun.abs x).val = |x.val| := rfl
@[simp] theorem item_rnd : JFun.item x = x := rfl
@[simp] theorem lt_rnd : JFun.lt x y = decide (x.val < y.val) := rfl
end Rnd

/-! ### binary32 -/

/-- Round a real to an integer: nearest, ties to even. -/
noncomputable def rne (x : ℝ) : ℤ :=
  if Int.fract x < 1 / 2 then ⌊x⌋
  else if 1 / 2 < Int.fract x then ⌊x⌋ + 1
  else if Even ⌊x⌋ then ⌊x⌋ else ⌊x⌋ + 1

theorem rne_err (x : ℝ) : |(rne x : ℝ) - x| ≤ 1 / 2 := by
  have h := Int.floor_add_fract x
  have h0 := Int.fract_nonneg x
  have h1 := Int.fract_lt_one x
  unfold rne
  split_ifs <;> push_cast <;> rw [abs_le] <;> constructor <;> linarith

theorem rne_eq_of_near {x : ℝ} {m : ℤ} (h : |x - m| < 1 / 2) : rne x = m := by
  have h1 := rne_err x
  have : |((rne x - m : ℤ) : ℝ)| < 1 := by
    push_cast
    calc |(rne x : ℝ) - m| = |((rne x : ℝ) - x) + (x - m)| := by ring_nf
      _ ≤ |(rne x : ℝ) - x| + |x - m| := abs_add_le _ _
      _ < 1 := by linarith
  have h2 : |rne x - m| < 1 := by exact_mod_cast this
  have h3 := Int.abs_lt_one_iff.1 h2
  omega

@[simp] theorem rne_intCast (m : ℤ) : rne (m : ℝ) = m := rne_eq_of_near (by simp)

/-- Unit in the last place of binary32 at `x`: `2^(⌊log2 |x|⌋ - 23)`. -/
noncomputable def ulp32 (x : ℝ) : ℝ := (2 : ℝ) ^ (Int.log 2 |x| - 23)

/-- Rounding to binary32 (unbounded exponent). -/
noncomputable def rd32 (x : ℝ) : ℝ := rne (x / ulp32 x) * ulp32 x

/-- The numbers representable in binary32 (unbounded exponent). -/
def Rep32 (x : ℝ) : Prop := ∃ m k : ℤ, |m| ≤ 2 ^ 24 ∧ x = m * (2 : ℝ) ^ k

theorem ulp32_pos (x : ℝ) : 0 < ulp32 x := by unfold ulp32; positivity

theorem rd32_zero : rd32 0 = 0 := by
  have : rne (0 : ℝ) = 0 := by exact_mod_cast rne_intCast 0
  simp [rd32, this]

theorem ulp32_bounds {x : ℝ} (hx : x ≠ 0) :
    (2 : ℝ) ^ 23 * ulp32 x ≤ |x| ∧ |x| < (2 : ℝ) ^ 24 * ulp32 x := by
  have h0 : 0 < |x| := abs_pos.2 hx
  have h1 := Int.zpow_log_le_self (b := 2) (r := |x|) (by norm_num) h0
  have h2 := Int.lt_zpow_succ_log_self (b := 2) (by norm_num) |x|
  have e1 : (2 : ℝ) ^ 23 * ulp32 x = (2 : ℝ) ^ (Int.log 2 |x|) := by
    unfold ulp32
    rw [show (2 : ℝ) ^ 23 = (2 : ℝ) ^ (23 : ℤ) by norm_num, ← zpow_add₀ (by norm_num)]
    congr 1; ring
  have e2 : (2 : ℝ) ^ 24 * ulp32 x = (2 : ℝ) ^ (Int.log 2 |x| + 1) := by
    unfold ulp32
    rw [show (2 : ℝ) ^ 24 = (2 : ℝ) ^ (24 : ℤ) by norm_num, ← zpow_add₀ (by norm_num)]
    congr 1; ring
  rw [e1, e2]
  exact ⟨by exact_mod_cast h1, by exact_mod_cast h2⟩

/-- `|x| ≥ 2^n` bounds the unit in the last place from below. -/
theorem ulp32_ge {x : ℝ} {n : ℤ} (h : (2 : ℝ) ^ n ≤ |x|) : (2 : ℝ) ^ (n - 23) ≤ ulp32 x := by
  have h0 : 0 < |x| := lt_of_lt_of_le (by positivity) h
  have : n ≤ Int.log 2 |x| := (Int.zpow_le_iff_le_log (b := 2) (by norm_num) h0).1 (by exact_mod_cast h)
  exact zpow_le_zpow_right₀ (by norm_num) (by omega)

/-- `|x| < 2^n` bounds the unit in the last place from above. -/
theorem ulp32_le {x : ℝ} {n : ℤ} (hx : x ≠ 0) (h : |x| < (2 : ℝ) ^ n) :
    ulp32 x ≤ (2 : ℝ) ^ (n - 24) := by
  have h0 : 0 < |x| := abs_pos.2 hx
  have : Int.log 2 |x| < n := (Int.lt_zpow_iff_log_lt (b := 2) (by norm_num) h0).1 (by exact_mod_cast h)
  exact zpow_le_zpow_right₀ (by norm_num) (by omega)

theorem rd32_err (x : ℝ) : |rd32 x - x| ≤ ulp32 x / 2 := by
  have hu := ulp32_pos x
  have h := rne_err (x / ulp32 x)
  have : rd32 x - x = ((rne (x / ulp32 x) : ℝ) - x / ulp32 x) * ulp32 x := by
    unfold rd32; field_simp
  rw [this, abs_mul, abs_of_pos hu]
  nlinarith

/-- Relative error of one rounding. -/
theorem rd32_rel (x : ℝ) : |rd32 x - x| ≤ |x| / 2 ^ 24 := by
  rcases eq_or_ne x 0 with rfl | hx
  · simp [rd32_zero]
  · have h1 := rd32_err x
    have h2 := (ulp32_bounds hx).1
    rw [le_div_iff₀ (by norm_num)]
    nlinarith

theorem rd32_rep (x : ℝ) : Rep32 (rd32 x) := by
  rcases eq_or_ne x 0 with rfl | hx
  · exact ⟨0, 0, by norm_num, by simp [rd32_zero]⟩
  · refine ⟨rne (x / ulp32 x), Int.log 2 |x| - 23, ?_, rfl⟩
    have hu := ulp32_pos x
    have h := (ulp32_bounds hx).2
    have h1 : |x / ulp32 x| < 2 ^ 24 := by
      rw [abs_div, abs_of_pos hu, div_lt_iff₀ hu]; exact h
    have h2 := rne_err (x / ulp32 x)
    have h3 : |(rne (x / ulp32 x) : ℝ)| < 2 ^ 24 + 1 := by
      calc |(rne (x / ulp32 x) : ℝ)| = |((rne (x / ulp32 x) : ℝ) - x / ulp32 x) + x / ulp32 x| := by
            ring_nf
        _ ≤ _ := abs_add_le _ _
        _ < _ := by linarith
    have h4 : |rne (x / ulp32 x)| < 2 ^ 24 + 1 := by exact_mod_cast h3
    omega

/-- A representable number is an integer number of its units in the last place. -/
theorem Rep32.units {x : ℝ} (h : Rep32 x) : ∃ m : ℤ, x = m * ulp32 x := by
  obtain ⟨m, k, hm, rfl⟩ := h
  rcases eq_or_ne m 0 with rfl | hm0
  · exact ⟨0, by simp⟩
  have hx : (m : ℝ) * (2 : ℝ) ^ k ≠ 0 := by positivity
  set x : ℝ := (m : ℝ) * (2 : ℝ) ^ k with hxd
  by_cases hk : Int.log 2 |x| - 23 ≤ k
  · obtain ⟨j, hj⟩ := Int.le.dest hk
    refine ⟨m * 2 ^ j, ?_⟩
    have e : (2 : ℝ) ^ k = 2 ^ j * ulp32 x := by
      rw [ulp32, ← hj, zpow_add₀ (by norm_num), zpow_natCast]; ring
    push_cast
    rw [mul_assoc, ← e]
  · -- then `|m| = 2^24` and `x` is a power of two
    push Not at hk
    have h2 : |x| ≤ (2 : ℝ) ^ (k + 24) := by
      rw [hxd, abs_mul, abs_of_pos (show (0 : ℝ) < (2 : ℝ) ^ k by positivity),
        zpow_add₀ (by norm_num), mul_comm]
      gcongr
      exact_mod_cast hm
    have h3 := Int.zpow_log_le_self (b := 2) (r := |x|) (by norm_num) (abs_pos.2 hx)
    have h4 : (2 : ℝ) ^ (Int.log 2 |x|) ≤ (2 : ℝ) ^ (k + 24) := le_trans (by exact_mod_cast h3) h2
    have h5 : Int.log 2 |x| ≤ k + 24 := (zpow_le_zpow_iff_right₀ (by norm_num)).1 h4
    have h6 : Int.log 2 |x| = k + 24 := by omega
    have h7 : |x| = (2 : ℝ) ^ (k + 24) := le_antisymm h2 (by rw [← h6]; exact_mod_cast h3)
    have e : (2 : ℝ) ^ (k + 24) = 2 ^ 23 * ulp32 x := by
      rw [ulp32, h6, show (2 : ℝ) ^ 23 = (2 : ℝ) ^ (23 : ℤ) by norm_num, ← zpow_add₀ (by norm_num)]
      congr 1; ring
    rcases abs_choice x with h | h
    · exact ⟨2 ^ 23, by push_cast; linarith⟩
    · exact ⟨-2 ^ 23, by push_cast; linarith⟩

theorem Rep32.rd {x : ℝ} (h : Rep32 x) : rd32 x = x := by
  obtain ⟨m, hm⟩ := h.units
  have hu := ulp32_pos x
  have : x / ulp32 x = m := by
    rw [div_eq_iff hu.ne']; exact hm
  rw [rd32, this, rne_intCast, ← hm]

theorem rd32_idem (x : ℝ) : rd32 (rd32 x) = rd32 x := (rd32_rep x).rd

/-- Absorption: adding less than half a unit in the last place to a positive representable number
gives the number back. -/
theorem rd32_absorb {x t : ℝ} (h : Rep32 x) (hx : 0 < x) (ht : 0 ≤ t) (htu : t < ulp32 x / 2) :
    rd32 (x + t) = x := by
  obtain ⟨m, hm⟩ := h.units
  have hu := ulp32_pos x
  have hb := ulp32_bounds hx.ne'
  rw [abs_of_pos hx] at hb
  have hm24 : m + 1 ≤ 2 ^ 24 := by
    have : (m : ℝ) < 2 ^ 24 := by
      have := hb.2
      rw [hm] at this
      nth_rewrite 2 [← hm] at this
      exact lt_of_mul_lt_mul_right this hu.le
    have : m < 2 ^ 24 := by exact_mod_cast this
    omega
  have hup : x + t < 2 ^ 24 * ulp32 x := by
    have : ((m : ℝ) + 1) ≤ 2 ^ 24 := by exact_mod_cast hm24
    nlinarith
  have hlog : Int.log 2 |x + t| = Int.log 2 |x| := by
    have h1 : (2 : ℝ) ^ (Int.log 2 |x|) = 2 ^ 23 * ulp32 x := by
      rw [ulp32, show (2 : ℝ) ^ 23 = (2 : ℝ) ^ (23 : ℤ) by norm_num, ← zpow_add₀ (by norm_num)]
      congr 1; ring
    have h2 : (2 : ℝ) ^ (Int.log 2 |x| + 1) = 2 ^ 24 * ulp32 x := by
      rw [ulp32, show (2 : ℝ) ^ 24 = (2 : ℝ) ^ (24 : ℤ) by norm_num, ← zpow_add₀ (by norm_num)]
      congr 1; ring
    have hpos : 0 < |x + t| := by rw [abs_of_pos (by linarith)]; linarith
    have l1 : Int.log 2 |x| ≤ Int.log 2 |x + t| := by
      refine (Int.zpow_le_iff_le_log (b := 2) (by norm_num) hpos).1 ?_
      push_cast
      rw [h1, abs_of_pos (by linarith : 0 < x + t)]; linarith
    have l2 : Int.log 2 |x + t| < Int.log 2 |x| + 1 := by
      refine (Int.lt_zpow_iff_log_lt (b := 2) (by norm_num) hpos).1 ?_
      push_cast
      rw [h2, abs_of_pos (by linarith : 0 < x + t)]; exact hup
    omega
  have hul : ulp32 (x + t) = ulp32 x := by unfold ulp32; rw [hlog]
  have : rne ((x + t) / ulp32 x) = m := by
    apply rne_eq_of_near
    have e : (x + t) / ulp32 x - m = t / ulp32 x := by
      rw [add_div]
      have : x / ulp32 x = m := by rw [div_eq_iff hu.ne']; exact hm
      rw [this]; ring
    rw [e, abs_of_nonneg (by positivity), div_lt_iff₀ hu]
    linarith
  rw [rd32, hul, this, ← hm]

theorem ulp32_eq {x : ℝ} {n : ℤ} (h : (2 : ℝ) ^ n ≤ x) (h' : x < (2 : ℝ) ^ (n + 1)) :
    ulp32 x = (2 : ℝ) ^ (n - 23) := by
  have hp : 0 < x := lt_of_lt_of_le (by positivity) h
  refine le_antisymm ?_ (ulp32_ge (by rwa [abs_of_pos hp]))
  have := ulp32_le (n := n + 1) hp.ne' (by rwa [abs_of_pos hp])
  rwa [show n + 1 - 24 = n - 23 by ring] at this

/-- Rounding does not cross a power of two downwards. -/
theorem rd32_ge_pow {x : ℝ} {n : ℤ} (h : (2 : ℝ) ^ n ≤ x) : (2 : ℝ) ^ n ≤ rd32 x := by
  have hp : 0 < x := lt_of_lt_of_le (by positivity) h
  have hu := ulp32_pos x
  have hb := (ulp32_bounds hp.ne').1
  rw [abs_of_pos hp] at hb
  have h1 : (2 : ℝ) ^ 23 ≤ x / ulp32 x := by rwa [le_div_iff₀ hu]
  have h2 := rne_err (x / ulp32 x)
  rw [abs_le] at h2
  have h3 : (2 : ℝ) ^ 23 - 1 < rne (x / ulp32 x) := by linarith [h2.1]
  have h4 : (2 : ℤ) ^ 23 - 1 < rne (x / ulp32 x) := by exact_mod_cast h3
  have h5 : (2 : ℤ) ^ 23 ≤ rne (x / ulp32 x) := by omega
  have h6 : (2 : ℝ) ^ 23 ≤ rne (x / ulp32 x) := by exact_mod_cast h5
  have h7 : (2 : ℝ) ^ 23 * ulp32 x ≤ rd32 x := by unfold rd32; gcongr
  refine le_trans ?_ h7
  have h8 := ulp32_ge (x := x) (n := n) (by rwa [abs_of_pos hp])
  calc (2 : ℝ) ^ n = 2 ^ 23 * (2 : ℝ) ^ (n - 23) := by
        rw [show (2 : ℝ) ^ 23 = (2 : ℝ) ^ (23 : ℤ) by norm_num, ← zpow_add₀ (by norm_num)]
        congr 1; ring
    _ ≤ _ := by gcongr

/-- The largest representable number below a power of two. -/
theorem Rep32.le_pred {x : ℝ} {n : ℤ} (hr : Rep32 x) (h : (2 : ℝ) ^ n ≤ x)
    (h' : x < (2 : ℝ) ^ (n + 1)) : x ≤ (2 : ℝ) ^ (n + 1) - (2 : ℝ) ^ (n - 23) := by
  obtain ⟨m, hm⟩ := hr.units
  rw [ulp32_eq h h'] at hm
  have hu : (0 : ℝ) < (2 : ℝ) ^ (n - 23) := by positivity
  have e : (2 : ℝ) ^ (n + 1) = 2 ^ 24 * (2 : ℝ) ^ (n - 23) := by
    rw [show (2 : ℝ) ^ 24 = (2 : ℝ) ^ (24 : ℤ) by norm_num, ← zpow_add₀ (by norm_num)]
    congr 1; ring
  have h1 : (m : ℝ) < 2 ^ 24 := by
    rw [hm, e] at h'
    exact lt_of_mul_lt_mul_right h' hu.le
  have h2 : m < 2 ^ 24 := by exact_mod_cast h1
  have h3 : m ≤ 2 ^ 24 - 1 := by omega
  have h4 : (m : ℝ) ≤ 2 ^ 24 - 1 := by exact_mod_cast h3
  rw [e]
  nlinarith

/-- Binary32 with correctly rounded elementary functions. -/
noncomputable def F32 : Fp where
  rd := rd32
  sin x := rd32 (Real.sin x)
  cos x := rd32 (Real.cos x)
  sinh x := rd32 (Real.sinh x)
  cosh x := rd32 (Real.cosh x)
  log x := rd32 (Real.log x)
  cbrt x := rd32 (realCbrt x)
  arccos x := rd32 (Real.arccos x)
  arctan2 y x := rd32 (Complex.arg ⟨x, y⟩)

end Adx
