import Verif.Props.C69
import Verif.Props.C68h
import Verif.Lemmas.SqrtSq

/-!
# C69, part 2: `solve_kepler_hypb` returns an infinity

The starting value `log(2N/e + sqrt((2N/e)**2 + 1))` cancels for negative `N`: once `(2N/e)²` absorbs the 1 (from `2N/e = -5793`
on in binary32, `-1.3e8` in binary64) the argument of the logarithm is exactly zero. The residual is then NaN, the loop does not
run, and the result is `-inf`. When the square overflows the result is `+inf`, for both signs of `N`.
-/

namespace Adx
open Spec Fl

variable {p : ℕ} {Ω : ℝ}

/-- The solver returns its starting value when the test is false there. -/
theorem hypb_returns_start {α : Type} [Add α] [Sub α] [Neg α] [Mul α] [Div α] [Pow α ℕ] [NatCast α] [JFun α]
    (N e tol : α) (n : ℕ) (h : JFun.lt tol (JFun.abs (kepler_equ_hypb (hypbStart N e) e N)) = false) :
    solve_kepler_hypb N e tol n = some (hypbStart N e) := by
  obtain ⟨k, _, _, h1, h2, _⟩ := C13_hypb N e tol n
  rcases k with _ | k
  · exact h1
  · have := h2 0 (by omega)
    simp only [Function.iterate_zero, id_eq] at this
    rw [h] at this; cases this

section
variable (hp : 10 ≤ p) (hΩ : 1000 ≤ Ω)
include hp hΩ

/-- The computed `2N/e`. -/
theorem hypb_arg {N e : ℝ} (he : 1 ≤ e) (hN : |rdB p (2 * N)| ≤ Ω) (hX : |rdB p (rdB p (2 * N) / e)| ≤ Ω) :
    (ℓ 2 * fin N / fin e : Fl (FB p) Ω) = fin (rdB p (rdB p (2 * N) / e)) := by
  have hF := stdModel_FB p hp
  have e1 : (ℓ 2 * fin N : Fl (FB p) Ω) = fin (rdB p (2 * N)) := by
    rw [lit_eq hF hΩ (by norm_num), mul_fin]
    · norm_num; rfl
    · exact_mod_cast hN
  rw [e1, div_fin (by linarith)]
  · rfl
  · exact hX

/-- C69, cancellation: the solver returns `-inf`. -/
theorem C69_hypb_ninf {N e tol : ℝ} {n : ℕ} (he : 1 ≤ e) (hN : |rdB p (2 * N)| ≤ Ω)
    (hX : |rdB p (rdB p (2 * N) / e)| ≤ Ω) (hneg : rdB p (rdB p (2 * N) / e) < 0)
    (hbig : (2 : ℝ) ^ (p + 1) ≤ rdB p (rdB p (2 * N) / e) ^ 2) (hov : rdB p (rdB p (rdB p (2 * N) / e) ^ 2) ≤ Ω) :
    solve_kepler_hypb (fin N : Fl (FB p) Ω) (fin e) (fin tol) n = some ninf := by
  have hF := stdModel_FB p hp
  have ea := hypb_arg hp hΩ he hN hX
  set X := rdB p (rdB p (2 * N) / e) with hXd
  rw [sq] at hbig hov
  have hidem : rdB p X = X := rdB_rdB (by omega) _
  have hy1 : (2 : ℝ) ^ (p + 1) ≤ rdB p (X * X) := by
    have := rdB_ge_zpow (p := p) (k := ((p + 1 : ℕ) : ℤ)) (by omega) (y := X * X) (by rw [zpow_natCast]; exact hbig)
    rwa [zpow_natCast] at this
  have hy0 : 0 ≤ rdB p (X * X) := le_trans (by positivity) hy1
  have e2 : (fin X : Fl (FB p) Ω) ^ 2 = fin (rdB p (X * X)) := mul_fin (F := FB p) (by
    show |rdB p (X * X)| ≤ Ω
    rwa [abs_of_nonneg hy0])
  have habs : rdB p (rdB p (X * X) + 1) = rdB p (X * X) := rdB_add_one hy1 (rdB_rdB (by omega) _)
  have e3 : (fin (rdB p (X * X)) + ℓ 1 : Fl (FB p) Ω) = fin (rdB p (X * X)) := by
    rw [lit_eq hF hΩ (n := 1) (by norm_num), Nat.cast_one, add_fin]
    · exact congrArg fin habs
    · show |rdB p (rdB p (X * X) + 1)| ≤ Ω
      rw [habs, abs_of_nonneg hy0]; exact hov
  have hsq : rdB p (Real.sqrt (rdB p (X * X))) = -X := by
    have := rdB_sqrt_sq (p := p) (by omega) (x := -X) (by linarith) (by rw [rdB_neg, hidem])
    rwa [neg_mul_neg] at this
  have e4 : JFun.sqrt (fin (rdB p (X * X)) : Fl (FB p) Ω) = fin (-X) := by
    rw [sqrt_fin hy0]
    · exact congrArg fin hsq
    · show |rdB p (Real.sqrt (rdB p (X * X)))| ≤ Ω
      rw [hsq, abs_neg]; exact hX
  have hz : (FB p).rd (X + -X) = 0 := by rw [add_neg_cancel]; exact rd_zero' hF
  have e5 : (fin X + fin (-X) : Fl (FB p) Ω) = fin 0 := by
    rw [add_fin (by rw [hz, abs_zero]; linarith), hz]
  have es : hypbStart (fin N : Fl (FB p) Ω) (fin e) = ninf := by
    rw [hypbStart, ea, e2, e3, e4, e5, log_zero]
  have := hypb_returns_start (fin N : Fl (FB p) Ω) (fin e) (fin tol) n (by
    rw [es, kepler_equ_hypb, sinh_ninf, pos_mul_ninf (by linarith), ninf_sub_ninf, nan_sub, abs_nan, lt_nan])
  rw [this, es]

/-- C69, overflow of the square: the solver returns `+inf`, also for negative `N`. -/
theorem C69_hypb_pinf {N e tol : ℝ} {n : ℕ} (he : 1 ≤ e) (hN : |rdB p (2 * N)| ≤ Ω)
    (hX : |rdB p (rdB p (2 * N) / e)| ≤ Ω) (hov : Ω < rdB p (rdB p (rdB p (2 * N) / e) ^ 2)) :
    solve_kepler_hypb (fin N : Fl (FB p) Ω) (fin e) (fin tol) n = some pinf := by
  have hF := stdModel_FB p hp
  have ea := hypb_arg hp hΩ he hN hX
  set X := rdB p (rdB p (2 * N) / e) with hXd
  rw [sq] at hov
  have e2 : (fin X : Fl (FB p) Ω) ^ 2 = pinf := mul_pinf_of hov (by linarith)
  have es : hypbStart (fin N : Fl (FB p) Ω) (fin e) = pinf := by
    rw [hypbStart, ea, e2, lit_eq hF hΩ (n := 1) (by norm_num), pinf_add_fin, sqrt_pinf, fin_add_pinf, log_pinf]
  have := hypb_returns_start (fin N : Fl (FB p) Ω) (fin e) (fin tol) n (by
    rw [es, kepler_equ_hypb, sinh_pinf, pos_mul_pinf (by linarith), pinf_sub_pinf, nan_sub, abs_nan, lt_nan])
  rw [this, es]

/-- The two cases by the size of the exact `2N/e`. -/
theorem hypb_inf_size {N e : ℝ} (he : 1 ≤ e) (hN : |N| ≤ 0.4 * Ω) :
    |rdB p (2 * N)| ≤ Ω ∧ |rdB p (rdB p (2 * N) / e)| ≤ Ω ∧
    0.998 * |2 * N / e| ≤ |rdB p (rdB p (2 * N) / e)| ∧ |rdB p (rdB p (2 * N) / e)| ≤ 1.003 * |2 * N / e| ∧
    (N < 0 → rdB p (rdB p (2 * N) / e) < 0) := by
  have hF := stdModel_FB p hp
  have a1 := rd_le hF (2 * N)
  have a2 := rd_abs_ge hF (2 * N)
  have a3 := rd_le hF (rdB p (2 * N) / e)
  have a4 := rd_abs_ge hF (rdB p (2 * N) / e)
  have e0 : 0 < e := by linarith
  change |rdB p (2 * N)| ≤ _ at a1
  change _ ≤ |rdB p (2 * N)| at a2
  change |rdB p (rdB p (2 * N) / e)| ≤ _ at a3
  change _ ≤ |rdB p (rdB p (2 * N) / e)| at a4
  rw [abs_div, abs_of_pos e0] at a3 a4
  rw [abs_div, abs_of_pos e0]
  have h2N : |2 * N| = 2 * |N| := by rw [abs_mul]; norm_num
  have b1 : |rdB p (2 * N)| / e ≤ 1.001 * (|2 * N| / e) := by rw [← mul_div_assoc]; gcongr
  have b2 : 0.999 * (|2 * N| / e) ≤ |rdB p (2 * N)| / e := by rw [← mul_div_assoc]; gcongr
  have b3 : |2 * N| / e ≤ |2 * N| := div_le_self (abs_nonneg _) he
  have b4 : 0 ≤ |2 * N| / e := by positivity
  have hN0 := abs_nonneg N
  refine ⟨?_, ?_, ?_, ?_, ?_⟩
  · norm_num at a1 hN ⊢; linarith
  · rw [h2N] at b1 b3
    norm_num at a3 b1 hN ⊢; linarith
  · norm_num at a4 b2 ⊢; linarith
  · norm_num at a3 b1 ⊢; linarith
  · intro hneg
    have f : ∀ t : ℝ, t < 0 → rdB p t < 0 := by
      intro t ht
      have := rd_ge hF (x := -t) (by linarith)
      change _ ≤ rdB p (-t) at this
      rw [rdB_neg] at this
      norm_num at this; linarith
    exact f _ (div_neg_of_neg_of_pos (f _ (by linarith)) e0)

end

/-- A root of the hyperbolic Kepler equation lies below every `L` with `|N| / e < sinh L - L`. -/
theorem hypb_root_size {H N e L : ℝ} (he : 1 < e) (hH : kepler_equ_hypb H e N = 0) (hL : |2 * N / e| < 2 * (Real.sinh L - L)) :
    |H| ≤ L := by
  by_contra hc
  have hm := Real.sinh_sub_id_strictMono (not_le.1 hc)
  simp only at hm
  have he0 : 0 < e := by linarith
  have hN : N = e * Real.sinh H - H := by rw [kep_hypb_eq] at hH; linarith
  have h1 : e * Real.sinh |H| - |H| ≤ |N| := by
    rw [hN, ← Real.abs_sinh]
    have := abs_sub_abs_le_abs_sub (e * Real.sinh H) H
    rwa [abs_mul, abs_of_pos he0] at this
  have h2 : |2 * N / e| * e = 2 * |N| := by
    rw [abs_div, abs_mul, abs_of_pos he0, abs_two]; field_simp
  have h3 : 0 ≤ |H| := abs_nonneg H
  nlinarith

/-- `2.7 ^ n / 2 - 1 - n` is below `sinh n - n`. -/
theorem sinh_sub_nat (n : ℕ) : (2.7 : ℝ) ^ n / 2 - 1 - n ≤ Real.sinh n - n := by
  have h3 : Real.exp n = Real.exp 1 ^ n := by rw [← Real.exp_nat_mul]; simp
  have h4 : (2.7 : ℝ) ^ n ≤ Real.exp 1 ^ n := by
    refine pow_le_pow_left₀ (by norm_num) ?_ n
    have := Real.exp_one_gt_d9
    norm_num at this ⊢
    linarith
  have h5 : Real.exp (-(n : ℝ)) ≤ 1 := Real.exp_le_one_iff.2 (by simp)
  rw [Real.sinh_eq, h3]
  linarith

theorem hypb_root_60 {H N e : ℝ} (he : 1 < e) (hH : kepler_equ_hypb H e N = 0) (h : |2 * N / e| ≤ 1e19) : |H| ≤ 60 := by
  refine hypb_root_size he hH ?_
  have := sinh_sub_nat 60
  norm_num at this h ⊢
  linarith

theorem hypb_root_350 {H N e : ℝ} (he : 1 < e) (hH : kepler_equ_hypb H e N = 0) (h : |2 * N / e| ≤ 1e150) : |H| ≤ 350 := by
  refine hypb_root_size he hH ?_
  have := sinh_sub_nat 350
  have h7 : (4e150 : ℝ) ≤ 2.7 ^ 350 := by
    have h1 : (1.2e15 : ℝ) ^ 10 ≤ (2.7 ^ 35) ^ 10 := pow_le_pow_left₀ (by norm_num) (by norm_num) 10
    rw [← pow_mul] at h1
    refine le_trans ?_ h1
    norm_num
  generalize (2.7 : ℝ) ^ 350 = t at *
  norm_num at this h h7 ⊢
  linarith

/-- C69: in binary32 `solve_kepler_hypb` returns `-inf` for every negative mean anomaly with `5810 ≤ 2|N|/e ≤ 1e19`, for every
tolerance and iteration limit, and the exact anomaly is a number of at most 60 in magnitude. (For positive `N` the same values
are handled, `C68_hypb_total`.) -/
theorem C69_hypb_bin32 {N e tol : ℝ} {n : ℕ} (he : 1 < e) (hN0 : N < 0) (hN : |N| ≤ 1e38)
    (h1 : 5810 ≤ |2 * N / e|) (h2 : |2 * N / e| ≤ 1e19) :
    solve_kepler_hypb (fin N : Bin32) (fin e) (fin tol) n = some ninf ∧
    ∃ H : ℝ, kepler_equ_hypb H e N = 0 ∧ |H| ≤ 60 := by
  obtain ⟨o1, o2⟩ := omega32_bounds
  obtain ⟨s1, s2, s3, s4, s5⟩ := hypb_inf_size (p := 24) (Ω := omega32) (by norm_num) (by norm_num at o1; linarith) (N := N) (e := e)
    (by linarith) (by norm_num at o1 hN ⊢; linarith)
  refine ⟨?_, ?_⟩
  · refine C69_hypb_ninf (by norm_num) (by norm_num at o1; linarith) (by linarith) s1 s2 (s5 hN0) ?_ ?_
    · rw [← sq_abs]
      have : (5798 : ℝ) ≤ |rdB 24 (rdB 24 (2 * N) / e)| := by norm_num at s3 h1 ⊢; linarith
      nlinarith
    · have hle := rd_le (stdModel_FB 24 (by norm_num)) (rdB 24 (rdB 24 (2 * N) / e) ^ 2)
      refine (le_abs_self _).trans (hle.trans ?_)
      rw [abs_of_nonneg (sq_nonneg _), ← sq_abs]
      have : |rdB 24 (rdB 24 (2 * N) / e)| ≤ 1.1e19 := by norm_num at s4 h2 ⊢; linarith
      have h0 := abs_nonneg (rdB 24 (rdB 24 (2 * N) / e))
      generalize |rdB 24 (rdB 24 (2 * N) / e)| = t at *
      norm_num at this o1 ⊢
      nlinarith
  · obtain ⟨H, hH, -⟩ := C11_existsUnique he N
    exact ⟨H, hH, hypb_root_60 he hH h2⟩

/-- The hypotheses are met: `N = -10000`, `e = 3`. -/
example : solve_kepler_hypb (fin (-10000) : Bin32) (fin 3) (fin (1 / 1000000)) 50 = some ninf :=
  (C69_hypb_bin32 (by norm_num) (by norm_num) (by norm_num) (by norm_num) (by norm_num)).1

/-- C69: the same in binary64 from `2|N|/e = 1.35e8` on. -/
theorem C69_hypb_bin64 {N e tol : ℝ} {n : ℕ} (he : 1 < e) (hN0 : N < 0) (hN : |N| ≤ 1e300)
    (h1 : 1.35e8 ≤ |2 * N / e|) (h2 : |2 * N / e| ≤ 1e150) :
    solve_kepler_hypb (fin N : Bin64) (fin e) (fin tol) n = some ninf ∧
    ∃ H : ℝ, kepler_equ_hypb H e N = 0 ∧ |H| ≤ 350 ∧ (|2 * N / e| ≤ 1e19 → |H| ≤ 60) := by
  have o1 : (1e308 : ℝ) ≤ omega64 := by
    rw [omega64, show (2 : ℝ) ^ 971 = (2 ^ 97) ^ 10 * 2 by rw [← pow_mul, ← pow_succ]]
    norm_num
  obtain ⟨s1, s2, s3, s4, s5⟩ := hypb_inf_size (p := 53) (Ω := omega64) (by norm_num) (by norm_num at o1; linarith) (N := N) (e := e)
    he.le (by norm_num at o1 hN ⊢; linarith)
  obtain ⟨H, hH, -⟩ := C11_existsUnique he N
  refine ⟨?_, H, hH, hypb_root_350 he hH h2, hypb_root_60 he hH⟩
  refine C69_hypb_ninf (by norm_num) (by norm_num at o1; linarith) he.le s1 s2 (s5 hN0) ?_ ?_
  · rw [← sq_abs]
    have : (134500000 : ℝ) ≤ |rdB 53 (rdB 53 (2 * N) / e)| := by norm_num at s3 h1 ⊢; linarith
    nlinarith
  · have hle := rd_le (stdModel_FB 53 (by norm_num)) (rdB 53 (rdB 53 (2 * N) / e) ^ 2)
    refine (le_abs_self _).trans (hle.trans ?_)
    rw [abs_of_nonneg (sq_nonneg _), ← sq_abs]
    have : |rdB 53 (rdB 53 (2 * N) / e)| ≤ 1.1e150 := by norm_num at s4 h2 ⊢; linarith
    have h0 := abs_nonneg (rdB 53 (rdB 53 (2 * N) / e))
    generalize |rdB 53 (rdB 53 (2 * N) / e)| = t at *
    norm_num at this o1 ⊢
    nlinarith

/-- The hypotheses are met: `N = -10⁹`, `e = 3/2`, where the exact anomaly is at most 60 in magnitude. -/
example : solve_kepler_hypb (fin (-1000000000) : Bin64) (fin (3 / 2)) (fin (1 / 1000000)) 50 = some ninf ∧
    ∃ H : ℝ, kepler_equ_hypb H (3 / 2) (-1000000000) = 0 ∧ |H| ≤ 60 := by
  obtain ⟨h, H, h1, -, h2⟩ := C69_hypb_bin64 (N := -1000000000) (e := 3 / 2) (tol := 1 / 1000000) (n := 50) (by norm_num)
    (by norm_num) (by norm_num) (by norm_num [abs_of_pos]) (by norm_num)
  exact ⟨h, H, h1, h2 (by norm_num)⟩

/-- C69: from `|2N/e| = 2e19` on, binary32 returns `+inf` for both signs. -/
theorem C69_hypb_bin32_pinf {N e tol : ℝ} {n : ℕ} (he : 1 ≤ e) (hN : |N| ≤ 1e38) (h1 : 2.1e19 ≤ |2 * N / e|) :
    solve_kepler_hypb (fin N : Bin32) (fin e) (fin tol) n = some pinf := by
  obtain ⟨o1, o2⟩ := omega32_bounds
  obtain ⟨s1, s2, s3, s4, s5⟩ := hypb_inf_size (p := 24) (Ω := omega32) (by norm_num) (by norm_num at o1; linarith) (N := N) (e := e)
    he (by norm_num at o1 hN ⊢; linarith)
  refine C69_hypb_pinf (by norm_num) (by norm_num at o1; linarith) he s1 s2 ?_
  have hge := rd_ge (stdModel_FB 24 (by norm_num)) (sq_nonneg (rdB 24 (rdB 24 (2 * N) / e)))
  refine lt_of_lt_of_le ?_ hge
  rw [← sq_abs]
  have : (2.09e19 : ℝ) ≤ |rdB 24 (rdB 24 (2 * N) / e)| := by norm_num at s3 h1 ⊢; linarith
  generalize |rdB 24 (rdB 24 (2 * N) / e)| = t at *
  norm_num at this o2 ⊢
  nlinarith

example : solve_kepler_hypb (fin (-4e19) : Bin32) (fin 3) (fin (1 / 1000000)) 50 = some pinf :=
  C69_hypb_bin32_pinf (by norm_num) (by norm_num) (by norm_num)

end Adx
