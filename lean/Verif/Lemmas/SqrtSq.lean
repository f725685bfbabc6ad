import Verif.Lemmas.Formats
import Verif.Lemmas.Round32

/-! # Radix 2: the rounded square root of a rounded square, and absorption of 1 -/

namespace Adx

/-- A number with `p` binary digits, in units in its last place. -/
theorem rdB_fix {p : ℕ} (x : ℝ) (h : rdB p x = x) : ∃ m : ℤ, x = m * ulpB p x := ⟨_, h.symm⟩

theorem ulpB_pos (p : ℕ) (x : ℝ) : 0 < ulpB p x := by unfold ulpB; positivity

/-- Rounding near a multiple of the unit in the last place. -/
theorem rdB_eq_of_near {p : ℕ} {y : ℝ} {k m : ℤ} (h1 : (2 : ℝ) ^ k ≤ y) (h2 : y < (2 : ℝ) ^ (k + 1))
    (h : |y - m * (2 : ℝ) ^ (k - (p - 1))| < (2 : ℝ) ^ (k - (p - 1)) / 2) : rdB p y = m * (2 : ℝ) ^ (k - (p - 1)) := by
  have hy : 0 < y := lt_of_lt_of_le (by positivity) h1
  have hk : Int.log 2 |y| = k := by
    rw [abs_of_pos hy]
    refine le_antisymm ?_ ?_
    · have := (Int.lt_zpow_iff_log_lt (b := 2) (by norm_num) hy (x := k + 1)).1 (by exact_mod_cast h2)
      omega
    · exact (Int.zpow_le_iff_le_log (b := 2) (by norm_num) hy).1 (by exact_mod_cast h1)
  have hu : ulpB p y = (2 : ℝ) ^ (k - (p - 1)) := by unfold ulpB; rw [hk]
  have hp : (0 : ℝ) < (2 : ℝ) ^ (k - (p - 1)) := by positivity
  rw [rdB, hu]
  congr 2
  refine rne_eq_of_near ?_
  have e : y / (2 : ℝ) ^ (k - (p - 1)) - m = (y - m * (2 : ℝ) ^ (k - (p - 1))) / (2 : ℝ) ^ (k - (p - 1)) := by
    field_simp
  rw [e, abs_div, abs_of_pos hp, div_lt_iff₀ hp]
  linarith

theorem rdB_err (p : ℕ) (x : ℝ) : |rdB p x - x| ≤ ulpB p x / 2 := by
  have hu := ulpB_pos p x
  have e1 : rdB p x - x = ((rne (x / ulpB p x) : ℝ) - x / ulpB p x) * ulpB p x := by
    unfold rdB; field_simp
  rw [e1, abs_mul, abs_of_pos hu]
  have := rne_err (x / ulpB p x)
  nlinarith

/-- Rounding does not cross a power of two from above. -/
theorem rdB_ge_zpow {p : ℕ} (hp : 1 ≤ p) {y : ℝ} {k : ℤ} (h : (2 : ℝ) ^ k ≤ y) : (2 : ℝ) ^ k ≤ rdB p y := by
  have hy : 0 < y := lt_of_lt_of_le (by positivity) h
  have hl := Int.zpow_log_le_self (b := 2) (r := |y|) (by norm_num) (abs_pos.2 hy.ne')
  have hk : k ≤ Int.log 2 |y| := by
    rw [abs_of_pos hy]
    exact (Int.zpow_le_iff_le_log (b := 2) (by norm_num) hy).1 (by exact_mod_cast h)
  refine (zpow_le_zpow_right₀ (by norm_num) hk : (2 : ℝ) ^ k ≤ (2 : ℝ) ^ (Int.log 2 |y|)).trans ?_
  obtain ⟨q, rfl⟩ := Nat.exists_eq_add_of_le hp
  have hu := ulpB_pos (1 + q) y
  have e : (2 : ℝ) ^ (Int.log 2 |y|) = ((2 ^ q : ℤ) : ℝ) * ulpB (1 + q) y := by
    unfold ulpB
    push_cast
    rw [← zpow_natCast, ← zpow_add₀ (by norm_num)]
    congr 1; ring
  rw [e, rdB]
  refine mul_le_mul_of_nonneg_right ?_ hu.le
  have h2 : ((2 ^ q : ℤ) : ℝ) ≤ y / ulpB (1 + q) y := by
    rw [le_div_iff₀ hu, ← e]
    rw [abs_of_pos hy] at hl ⊢
    exact_mod_cast hl
  have h3 := (abs_le.1 (rne_err (y / ulpB (1 + q) y))).1
  have h4 : ((2 ^ q : ℤ) : ℝ) - 1 < (rne (y / ulpB (1 + q) y) : ℝ) := by linarith
  have h5 : (2 ^ q : ℤ) - 1 < rne (y / ulpB (1 + q) y) := by exact_mod_cast h4
  exact_mod_cast (by omega : (2 ^ q : ℤ) ≤ rne (y / ulpB (1 + q) y))

theorem rdB_neg (p : ℕ) (x : ℝ) : rdB p (-x) = -rdB p x := by
  have : ulpB p (-x) = ulpB p x := by rw [ulpB, ulpB, abs_neg]
  rw [rdB, rdB, this, neg_div, rne_neg]; push_cast; ring

theorem rdB_zpow {p : ℕ} (hp : 1 ≤ p) (k : ℤ) : rdB p ((2 : ℝ) ^ k) = (2 : ℝ) ^ k := by
  have e : ((2 ^ (p - 1) : ℤ) : ℝ) * (2 : ℝ) ^ (k - (p - 1)) = (2 : ℝ) ^ k := by
    push_cast
    rw [← zpow_natCast, ← zpow_add₀ (by norm_num)]
    congr 1; push_cast [Nat.cast_sub hp]; ring
  have := rdB_eq_of_near (p := p) (y := (2 : ℝ) ^ k) (k := k) (m := 2 ^ (p - 1)) le_rfl
    (zpow_lt_zpow_right₀ (by norm_num) (by omega)) (by rw [e, sub_self, abs_zero]; positivity)
  rw [this, e]

/-- Rounding is idempotent. -/
theorem rdB_rdB {p : ℕ} (hp : 1 ≤ p) (x : ℝ) : rdB p (rdB p x) = rdB p x := by
  have pos : ∀ x : ℝ, 0 < x → rdB p (rdB p x) = rdB p x := by
    intro x hx
    set k := Int.log 2 |x| with hk
    have l1 : (2 : ℝ) ^ k ≤ x := by
      have := Int.zpow_log_le_self (b := 2) (r := |x|) (by norm_num) (abs_pos.2 hx.ne')
      rw [abs_of_pos hx] at this
      rw [hk, abs_of_pos hx]; exact_mod_cast this
    have l2 : x < (2 : ℝ) ^ (k + 1) := by
      have := Int.lt_zpow_succ_log_self (b := 2) (by norm_num) |x|
      rw [abs_of_pos hx] at this
      rw [hk, abs_of_pos hx]; exact_mod_cast this
    have hU : ulpB p x = (2 : ℝ) ^ (k - (p - 1)) := rfl
    have hu := ulpB_pos p x
    have h1 := rdB_ge_zpow hp l1
    set m := rne (x / ulpB p x) with hm
    have hv : rdB p x = m * (2 : ℝ) ^ (k - (p - 1)) := by rw [← hU]; rfl
    have eP1 : (2 : ℝ) ^ (k + 1) = 2 ^ p * ulpB p x := by
      rw [hU, ← zpow_natCast, ← zpow_add₀ (by norm_num)]
      congr 1; ring
    have hmle : m ≤ 2 ^ p := by
      have h2 : x / ulpB p x < 2 ^ p := by rw [div_lt_iff₀ hu, ← eP1]; exact l2
      have h3 := (abs_le.1 (rne_err (x / ulpB p x))).2
      have h4 : (m : ℝ) < 2 ^ p + 1 := by rw [hm]; linarith
      have h5 : m < 2 ^ p + 1 := by exact_mod_cast h4
      omega
    rcases hmle.lt_or_eq with hlt | heq
    · have h6 : rdB p x < (2 : ℝ) ^ (k + 1) := by
        rw [hv, eP1, ← hU]
        exact mul_lt_mul_of_pos_right (by exact_mod_cast hlt) hu
      have := rdB_eq_of_near (p := p) (m := m) h1 h6 (by rw [← hv, sub_self, abs_zero]; positivity)
      rw [this, hv]
    · have : rdB p x = (2 : ℝ) ^ (k + 1) := by rw [hv, heq, eP1, hU]; push_cast; ring
      rw [this, rdB_zpow hp]
  rcases lt_trichotomy x 0 with h | rfl | h
  · have := pos (-x) (by linarith)
    rw [rdB_neg, rdB_neg, neg_inj] at this
    exact this
  · have : rdB p 0 = 0 := by
      have : rne (0 : ℝ) = 0 := by exact_mod_cast rne_intCast 0
      simp [rdB, this]
    rw [this, this]
  · exact pos x h

/-- The square root of a rounded square is the number itself. -/
theorem rdB_sqrt_sq {p : ℕ} (hp : 2 ≤ p) {x : ℝ} (hx : 0 < x) (h : rdB p x = x) :
    rdB p (Real.sqrt (rdB p (x * x))) = x := by
  set k := Int.log 2 |x| with hk
  obtain ⟨m, hm⟩ := rdB_fix x h
  have hux : ulpB p x = (2 : ℝ) ^ (k - (p - 1)) := rfl
  set U := (2 : ℝ) ^ (k - (p - 1)) with hU
  have hU0 : 0 < U := by positivity
  rw [hux] at hm
  have l1 : (2 : ℝ) ^ k ≤ x := by
    have := Int.zpow_log_le_self (b := 2) (r := |x|) (by norm_num) (abs_pos.2 hx.ne')
    rw [abs_of_pos hx] at this
    rw [hk, abs_of_pos hx]; exact_mod_cast this
  have l2 : x < (2 : ℝ) ^ (k + 1) := by
    have := Int.lt_zpow_succ_log_self (b := 2) (by norm_num) |x|
    rw [abs_of_pos hx] at this
    rw [hk, abs_of_pos hx]; exact_mod_cast this
  have eP : (2 : ℝ) ^ k = 2 ^ (p - 1) * U := by
    rw [hU, ← zpow_natCast, ← zpow_add₀ (by norm_num)]
    congr 1; push_cast [Nat.cast_sub (by omega : 1 ≤ p)]; ring
  have eP1 : (2 : ℝ) ^ (k + 1) = 2 ^ p * U := by
    rw [hU, ← zpow_natCast, ← zpow_add₀ (by norm_num)]
    congr 1; ring
  -- `x` is at least one unit below the next power of two
  have l3 : x ≤ (2 : ℝ) ^ (k + 1) - U := by
    have h0 : (m : ℝ) < 2 ^ p := by
      rw [eP1, hm] at l2
      exact lt_of_mul_lt_mul_right l2 hU0.le
    have h1 : m < 2 ^ p := by exact_mod_cast h0
    have h2 : (m : ℝ) ≤ 2 ^ p - 1 := by exact_mod_cast (by omega : m ≤ 2 ^ p - 1)
    rw [eP1, hm]
    nlinarith
  set y := rdB p (x * x) with hy
  have hxx : 0 < x * x := mul_pos hx hx
  have e2k : (2 : ℝ) ^ (2 * k) = (2 : ℝ) ^ k * (2 : ℝ) ^ k := by rw [← zpow_add₀ (by norm_num)]; congr 1; ring
  have hK0 : (0 : ℝ) < (2 : ℝ) ^ k := by positivity
  have s1 : (2 : ℝ) ^ (2 * k) ≤ x * x := by rw [e2k]; exact mul_le_mul l1 l1 hK0.le hx.le
  have y1 : (2 : ℝ) ^ (2 * k) ≤ y := rdB_ge_zpow (by omega) s1
  have hy0 : 0 < y := lt_of_lt_of_le (by positivity) y1
  have hP : (2 : ℝ) ≤ 2 ^ (p - 1) := by
    calc (2 : ℝ) = 2 ^ 1 := by norm_num
      _ ≤ 2 ^ (p - 1) := pow_le_pow_right₀ (by norm_num) (by omega)
  have eK1 : (2 : ℝ) ^ (k + 1) = 2 * (2 : ℝ) ^ k := by rw [zpow_add₀ (by norm_num)]; norm_num; ring
  -- the error of the square
  have herr := rdB_err p (x * x)
  rw [← hy] at herr
  set S := Real.sqrt y with hS
  have hSS : S * S = y := Real.mul_self_sqrt hy0.le
  have hS0 : 0 ≤ S := Real.sqrt_nonneg _
  have hSk : (2 : ℝ) ^ k ≤ S := by
    rw [hS]; refine Real.le_sqrt_of_sq_le ?_
    rw [sq, ← e2k]; exact y1
  -- two cases for the binade of the square
  have hd : |S - x| < U / 2 := by
    have hfac : (S - x) * (S + x) = y - x * x := by rw [← hSS]; ring
    have habs : |S - x| * (S + x) = |y - x * x| := by
      rw [← hfac, abs_mul, abs_of_pos (by linarith : 0 < S + x)]
    rcases lt_or_ge (x * x) ((2 : ℝ) ^ (2 * k + 1)) with hc | hc
    · have hlog : Int.log 2 |x * x| = 2 * k := by
        rw [abs_of_pos hxx]
        refine le_antisymm ?_ ((Int.zpow_le_iff_le_log (b := 2) (by norm_num) hxx).1 (by exact_mod_cast s1))
        have := (Int.lt_zpow_iff_log_lt (b := 2) (by norm_num) hxx (x := 2 * k + 1)).1 (by exact_mod_cast hc)
        omega
      have hu2 : ulpB p (x * x) = (2 : ℝ) ^ k * U := by
        unfold ulpB; rw [hlog, hU, ← zpow_add₀ (by norm_num)]; congr 1; ring
      rw [hu2] at herr
      by_contra hcon
      push Not at hcon
      have : U / 2 * ((2 : ℝ) ^ k + (2 : ℝ) ^ k) ≤ |S - x| * (S + x) :=
        mul_le_mul hcon (by linarith) (by linarith) (abs_nonneg _)
      rw [habs] at this
      nlinarith [mul_pos hK0 hU0]
    · have hlog : Int.log 2 |x * x| = 2 * k + 1 := by
        rw [abs_of_pos hxx]
        refine le_antisymm ?_ ((Int.zpow_le_iff_le_log (b := 2) (by norm_num) hxx).1 (by exact_mod_cast hc))
        have h3 : x * x < (2 : ℝ) ^ (2 * k + 2) := by
          have e4 : (2 : ℝ) ^ (2 * k + 2) = (2 : ℝ) ^ (k + 1) * (2 : ℝ) ^ (k + 1) := by
            rw [← zpow_add₀ (by norm_num)]; congr 1; ring
          rw [e4]; nlinarith
        have := (Int.lt_zpow_iff_log_lt (b := 2) (by norm_num) hxx (x := 2 * k + 2)).1 (by exact_mod_cast h3)
        omega
      have hu2 : ulpB p (x * x) = 2 * ((2 : ℝ) ^ k * U) := by
        have : (2 : ℝ) * ((2 : ℝ) ^ k * U) = (2 : ℝ) ^ (1 : ℤ) * ((2 : ℝ) ^ k * U) := by norm_num
        unfold ulpB; rw [hlog, this, hU, ← zpow_add₀ (by norm_num), ← zpow_add₀ (by norm_num)]; congr 1; ring
      rw [hu2] at herr
      have hc2 : 2 * ((2 : ℝ) ^ k * (2 : ℝ) ^ k) ≤ x * x := by
        rw [← e2k]
        have : (2 : ℝ) ^ (2 * k + 1) = 2 * (2 : ℝ) ^ (2 * k) := by rw [zpow_add₀ (by norm_num)]; norm_num; ring
        linarith
      have hx14 : 1.4 * (2 : ℝ) ^ k ≤ x := by
        by_contra hcon
        push Not at hcon
        norm_num at hcon
        nlinarith
      by_contra hcon
      push Not at hcon
      have : U / 2 * ((2 : ℝ) ^ k + 1.4 * (2 : ℝ) ^ k) ≤ |S - x| * (S + x) :=
        mul_le_mul hcon (by linarith) (by positivity) (abs_nonneg _)
      rw [habs] at this
      norm_num at this
      nlinarith [mul_pos hK0 hU0]
  have hS2 : S < (2 : ℝ) ^ (k + 1) := by
    have := (abs_lt.1 hd).2
    linarith
  have := rdB_eq_of_near (p := p) (m := m) hSk hS2 (by rw [← hU, ← hm]; exact hd)
  rw [this, ← hU, ← hm]

/-- Absorption: adding 1 to a number of at least `2^(p+1)` changes nothing. -/
theorem rdB_add_one {p : ℕ} {y : ℝ} (hy : (2 : ℝ) ^ (p + 1) ≤ y) (h : rdB p y = y) : rdB p (y + 1) = y := by
  have hy0 : 0 < y := lt_of_lt_of_le (by positivity) hy
  set k := Int.log 2 |y| with hk
  obtain ⟨m, hm⟩ := rdB_fix y h
  have huy : ulpB p y = (2 : ℝ) ^ (k - (p - 1)) := rfl
  rw [huy] at hm
  have hkp : (p : ℤ) + 1 ≤ k := by
    rw [hk, abs_of_pos hy0]
    refine (Int.zpow_le_iff_le_log (b := 2) (by norm_num) hy0).1 ?_
    exact_mod_cast hy
  have hU4 : (4 : ℝ) ≤ (2 : ℝ) ^ (k - (p - 1)) := by
    calc (4 : ℝ) = (2 : ℝ) ^ (2 : ℤ) := by norm_num
      _ ≤ _ := zpow_le_zpow_right₀ (by norm_num) (by omega)
  have l1 : (2 : ℝ) ^ k ≤ y := by
    have := Int.zpow_log_le_self (b := 2) (r := |y|) (by norm_num) (abs_pos.2 hy0.ne')
    rw [abs_of_pos hy0] at this
    rw [hk, abs_of_pos hy0]; exact_mod_cast this
  have l2 : y < (2 : ℝ) ^ (k + 1) := by
    have := Int.lt_zpow_succ_log_self (b := 2) (by norm_num) |y|
    rw [abs_of_pos hy0] at this
    rw [hk, abs_of_pos hy0]; exact_mod_cast this
  set U := (2 : ℝ) ^ (k - (p - 1)) with hU
  have eP1 : (2 : ℝ) ^ (k + 1) = 2 ^ p * U := by
    rw [hU, ← zpow_natCast, ← zpow_add₀ (by norm_num)]
    congr 1; ring
  have l3 : y ≤ (2 : ℝ) ^ (k + 1) - U := by
    have h0 : (m : ℝ) < 2 ^ p := by
      rw [eP1, hm] at l2
      exact lt_of_mul_lt_mul_right l2 (by linarith)
    have h1 : m < 2 ^ p := by exact_mod_cast h0
    have h2 : (m : ℝ) ≤ 2 ^ p - 1 := by exact_mod_cast (by omega : m ≤ 2 ^ p - 1)
    rw [eP1, hm]
    nlinarith
  have := rdB_eq_of_near (p := p) (m := m) (y := y + 1) (k := k) (by linarith) (by linarith) (by
    rw [← hU, ← hm]
    rw [show y + 1 - y = 1 by ring, abs_one]; linarith)
  rw [this, ← hU, ← hm]

end Adx
