import Verif.Props.C18d

/-! # C18, continued: hyperbolas down to eccentricity 1.00018

Right of the root each Newton step at least halves the residual, for every `e > 1`. This replaces the contraction of
the distance to the root in `Props/C18d`, and the descent is counted with the actual size of `N`. -/

namespace Adx
open Set

/-- Second-order upper bound of `sinh` to the left of `x`. -/
theorem sinh_left_taylor (x : ℝ) {t : ℝ} (ht : 0 ≤ t) :
    Real.sinh (x - t) ≤ Real.sinh x - t * Real.cosh x + t ^ 2 / 2 * Real.sinh x := by
  have dx : ∀ s : ℝ, HasDerivAt (fun s => x - s) (-1) s := fun s => (hasDerivAt_id' s).const_sub x
  have d1 : ∀ s, HasDerivAt (fun s => s * Real.sinh x + Real.cosh (x - s)) (Real.sinh x - Real.sinh (x - s)) s := fun s => by
    refine (((hasDerivAt_id' s).mul_const (Real.sinh x)).fun_add ((dx s).cosh)).congr_deriv ?_
    ring
  have h1 : ∀ s ∈ Icc (0 : ℝ) t, 0 ≤ s * Real.sinh x + Real.cosh (x - s) - Real.cosh x := fun s hs => by
    have := mono_of_deriv_nonneg d1 (fun u hu => sub_nonneg.2 (Real.sinh_le_sinh.2 (by linarith [hu.1])))
      (left_mem_Icc.2 (hs.1.trans hs.2)) hs hs.1
    simp only [zero_mul, zero_add, sub_zero] at this
    linarith
  have d0 : ∀ s, HasDerivAt (fun s => s ^ 2 / 2 * Real.sinh x - s * Real.cosh x - Real.sinh (x - s))
      (s * Real.sinh x + Real.cosh (x - s) - Real.cosh x) s := fun s => by
    refine (((((hasDerivAt_id' s).fun_pow 2).div_const 2).mul_const (Real.sinh x)).fun_sub
      ((hasDerivAt_id' s).mul_const (Real.cosh x)) |>.fun_sub ((dx s).sinh)).congr_deriv ?_
    simp
    ring
  have := mono_of_deriv_nonneg d0 h1 (left_mem_Icc.2 ht) (right_mem_Icc.2 ht) ht
  simp only [zero_mul, sub_zero] at this
  norm_num at this
  linarith

/-- `2 (cosh h - 1) ≤ h sinh h`. -/
theorem two_cosh_le {h : ℝ} (hh : 0 ≤ h) : 2 * Real.cosh h ≤ 2 + h * Real.sinh h := by
  have d : ∀ s, HasDerivAt (fun s => s * Real.sinh s - 2 * Real.cosh s) (s * Real.cosh s - Real.sinh s) s := fun s => by
    refine (((hasDerivAt_id' s).fun_mul (Real.hasDerivAt_sinh s)).fun_sub
      ((Real.hasDerivAt_cosh s).const_mul 2)).congr_deriv ?_
    ring
  have := mono_of_deriv_nonneg d (fun s hs => sub_nonneg.2 (sinh_le_self_mul_cosh hs.1))
    (left_mem_Icc.2 hh) (right_mem_Icc.2 hh) hh
  simp only [zero_mul, Real.cosh_zero] at this
  linarith

section
variable {N e : ℝ} (he : 1 < e) (hN : 0 ≤ N)
include he hN

/-- Newton's step from anywhere right of the origin ends right of the root. -/
theorem hypb_next {x : ℝ} (hx : 0 ≤ x) : 0 ≤ newtonHypb N e x ∧ 0 ≤ kepler_equ_hypb (newtonHypb N e x) e N := by
  have hpos := dH_pos' he x
  have hmul : newtonHypb N e x * dH x e = e * (x * Real.cosh x - Real.sinh x) + N := by
    rw [newtonHypb_eq, newton, sub_mul, div_mul_cancel₀ _ hpos.ne', kep_hypb_eq, dH_eq]; ring
  have h0 : 0 ≤ newtonHypb N e x := by
    have h1 := mul_nonneg (show 0 ≤ e by linarith) (sub_nonneg.2 (sinh_le_self_mul_cosh hx))
    exact nonneg_of_mul_nonneg_left (by rw [hmul]; linarith) hpos
  refine ⟨h0, ?_⟩
  have ht := mul_le_mul_of_nonneg_left (sinh_tangent hx h0) (show 0 ≤ e by linarith)
  rw [kep_hypb_eq]
  rw [dH_eq] at hmul
  linarith

/-- Right of the root a step at least halves the residual, at every eccentricity above 1. -/
theorem hypb_halve {x : ℝ} (hx : 0 ≤ x) (hf : 0 ≤ kepler_equ_hypb x e N) :
    kepler_equ_hypb (newtonHypb N e x) e N ≤ kepler_equ_hypb x e N / 2 := by
  have hpos := dH_pos' he x
  obtain ⟨t, ht⟩ : ∃ t, t = kepler_equ_hypb x e N / dH x e := ⟨_, rfl⟩
  have ht0 : 0 ≤ t := by rw [ht]; exact div_nonneg hf hpos.le
  have hft : kepler_equ_hypb x e N = t * dH x e := by rw [ht, div_mul_cancel₀ _ hpos.ne']
  have hn : newtonHypb N e x = x - t := by rw [newtonHypb_eq, newton, ← ht]
  have hs0 : 0 ≤ Real.sinh x := Real.sinh_nonneg_iff.2 hx
  have hT := mul_le_mul_of_nonneg_left (sinh_left_taylor x ht0) (show 0 ≤ e by linarith)
  -- `t e sinh x ≤ dH x`
  have hkey : t * (e * Real.sinh x) ≤ dH x e := by
    refine le_of_mul_le_mul_right ?_ hpos
    have h1 : t * (e * Real.sinh x) * dH x e = kepler_equ_hypb x e N * (e * Real.sinh x) := by rw [hft]; ring
    rw [h1, kep_hypb_eq, dH_eq]
    have hcs := Real.cosh_sq x
    have h2 := mul_le_mul_of_nonneg_left (two_cosh_le hx) (show 0 ≤ e by linarith)
    have h3 := mul_nonneg hN (mul_nonneg (show 0 ≤ e by linarith) hs0)
    have h4 : (e * Real.cosh x - 1) * (e * Real.cosh x - 1) = e ^ 2 * (Real.sinh x ^ 2 + 1) - 2 * (e * Real.cosh x) + 1 := by
      rw [← hcs]; ring
    rw [h4]
    nlinarith [sq_nonneg (e - 1)]
  have h5 := mul_le_mul_of_nonneg_left hkey ht0
  rw [hn, hft, kep_hypb_eq]
  rw [kep_hypb_eq, dH_eq] at hft
  rw [dH_eq] at h5 ⊢
  nlinarith

end

/-- Descent far from the root with the size of `N` as a parameter. -/
theorem hypb_descent' {N e x b d n : ℝ} (he : 1 ≤ e) (hN : N ≤ n) (hn : 0 ≤ n) (hd : 2 / 5 ≤ d) (hd1 : d ≤ 1) (hb1 : 1 ≤ b)
    (hnum : b + n ≤ (1 - d) / 2 * Real.exp b) (hbx : b ≤ x) : newtonHypb N e x ≤ x - d := by
  have hpos : 0 < dH x e := by
    rw [dH_eq]
    have : 1 < Real.cosh x := Real.one_lt_cosh.2 (by linarith)
    nlinarith
  have h1 : Real.exp b * (1 + (x - b)) ≤ Real.exp x := by
    have := Real.add_one_le_exp (x - b)
    have h2 : Real.exp x = Real.exp b * Real.exp (x - b) := by rw [← Real.exp_add]; ring_nf
    rw [h2]
    exact mul_le_mul_of_nonneg_left (by linarith) (Real.exp_pos b).le
  have hm : Real.exp (-x) ≤ Real.exp (-1) := Real.exp_le_exp.2 (by linarith)
  have hm1 : Real.exp (-1 : ℝ) ≤ 0.37 := by
    have := Real.exp_neg_one_lt_d9
    linarith
  have hm0 := Real.exp_pos (-x)
  have h3 : x + n ≤ (1 - d) / 2 * Real.exp x := by
    have h4 := mul_le_mul_of_nonneg_left h1 (by linarith : 0 ≤ (1 - d) / 2)
    nlinarith
  have h5 : x + n - d ≤ Real.sinh x - d * Real.cosh x := by
    rw [Real.sinh_eq, Real.cosh_eq]
    nlinarith
  have h6 : x + n - d ≤ e * (Real.sinh x - d * Real.cosh x) := by nlinarith
  have h7 : d ≤ kepler_equ_hypb x e N / dH x e := by
    rw [le_div_iff₀ hpos, kep_hypb_eq, dH_eq]
    linarith
  rw [newtonHypb_eq, newton]
  linarith

section
variable {N e : ℝ} (he : 50009 / 50000 ≤ e) (he2 : e ≤ 2001 / 2000) (hN : 0 ≤ N)
include he he2 hN

/-- The starting value left of the root, `1.00018 ≤ e ≤ 1.0005`. -/
theorem hypb_fast_left_near (hstart : N < hypbStart N e) (j : ℕ) (hj : 50 ≤ j) :
    |kepler_equ_hypb ((newtonHypb N e)^[j] (hypbStart N e)) e N| ≤ 1 / 1000000 := by
  have he1 : 1 < e := by linarith
  have hu0 : 0 ≤ 2 * N / e := by positivity
  have hH0 : hypbStart N e = Real.arsinh (2 * N / e) := hypbStart_eq N e
  have hes : e * Real.sinh (hypbStart N e) = 2 * N := by
    rw [hH0, Real.sinh_arsinh]; field_simp
  set H0 := hypbStart N e with hHdef
  have h0 : 0 ≤ H0 := by rw [hH0]; exact Real.arsinh_nonneg_iff.2 hu0
  have hf : kepler_equ_hypb H0 e N = N - H0 := by rw [kep_hypb_eq, hes]; ring
  have hsp : H0 ≤ Real.sinh H0 := Real.self_le_sinh_iff.2 h0
  have hpos := dH_pos' he1 H0
  have hcosh : 1 + H0 ^ 2 / 2 ≤ Real.cosh H0 := by
    have h1 := Real.cosh_two_mul (H0 / 2)
    rw [show 2 * (H0 / 2) = H0 by ring, Real.cosh_sq] at h1
    have h2 : H0 / 2 ≤ Real.sinh (H0 / 2) := Real.self_le_sinh_iff.2 (by linarith)
    nlinarith
  have hhalf : H0 - N ≤ H0 / 2 := by nlinarith
  have hden : 9 / 50000 + H0 ^ 2 / 2 ≤ dH H0 e := by rw [dH_eq]; nlinarith [sq_nonneg H0]
  set x : ℕ → ℝ := fun k => (newtonHypb N e)^[k + 1] H0 with hx
  have hstep : ∀ k, x (k + 1) = newtonHypb N e (x k) := fun k => by
    simp only [hx, Function.iterate_succ_apply']
  have hin : ∀ k, 0 ≤ x k ∧ 0 ≤ kepler_equ_hypb (x k) e N := by
    intro k
    induction k with
    | zero => exact hypb_next he1 hN h0
    | succ k ih => rw [hstep]; exact hypb_next he1 hN ih.1
  have hdec : ∀ k, x (k + 1) ≤ x k := fun k => by
    have := div_nonneg (hin k).2 (dH_pos' he1 (x k)).le
    rw [hstep, newtonHypb_eq, newton]; linarith
  have e29 : (18 : ℝ) ≤ Real.exp 2.9 := exp_ge_of_pow (p := 29) (q := 10) (by norm_num) (by norm_num) (by norm_num)
  have b29 : x 26 ≤ 2.9 := by
    rcases le_total H0 (1 / 2) with hsm | hlg
    · have hN2 : N ≤ 1 / 2 := by linarith
      have hjump : x 0 ≤ 26.86 := by
        show newtonHypb N e H0 ≤ _
        have : -(26.36 : ℝ) ≤ kepler_equ_hypb H0 e N / dH H0 e := by
          rw [le_div_iff₀ hpos, hf]
          have h3 : H0 / 2 ≤ 26.36 * (9 / 50000 + H0 ^ 2 / 2) := by nlinarith [sq_nonneg (H0 - 1 / 52.72)]
          linarith
        rw [newtonHypb_eq, newton]
        linarith
      have e8 : (2900 : ℝ) ≤ Real.exp 8 := exp_ge_of_pow (p := 8) (q := 1) (by norm_num) (by norm_num) (by norm_num)
      have e53 : (196 : ℝ) ≤ Real.exp 5.3 := exp_ge_of_pow (p := 53) (q := 10) (by norm_num) (by norm_num) (by norm_num)
      have e38 : (44 : ℝ) ≤ Real.exp 3.8 := exp_ge_of_pow (p := 19) (q := 5) (by norm_num) (by norm_num) (by norm_num)
      have b1 : x (0 + 19) ≤ 8 := below_after (n := 0) (m := 19) (g := newtonHypb N e) (d := 993 / 1000) (B := 26.86) hstep
        hdec (fun y hy => hypb_descent' (n := 1 / 2) (b := 8) (by linarith) hN2 (by norm_num) (by norm_num) (by norm_num)
          (by norm_num) (by linarith) hy) hjump (by norm_num) (by norm_num)
      have b2 : x (19 + 3) ≤ 5.3 := below_after (g := newtonHypb N e) (d := 9 / 10) (B := 8) hstep hdec
        (fun y hy => hypb_descent' (n := 1 / 2) (b := 5.3) (by linarith) hN2 (by norm_num) (by norm_num) (by norm_num)
          (by norm_num) (by linarith) hy) b1 (by norm_num) (by norm_num)
      have b3 : x (22 + 2) ≤ 3.8 := below_after (g := newtonHypb N e) (d := 3 / 4) (B := 5.3) hstep hdec
        (fun y hy => hypb_descent' (n := 1 / 2) (b := 3.8) (by linarith) hN2 (by norm_num) (by norm_num) (by norm_num)
          (by norm_num) (by linarith) hy) b2 (by norm_num) (by norm_num)
      exact below_after (n := 24) (m := 2) (g := newtonHypb N e) (d := 1 / 2) (B := 3.8) hstep hdec
        (fun y hy => hypb_descent' (n := 1 / 2) (b := 2.9) (by linarith) hN2 (by norm_num) (by norm_num) (by norm_num)
          (by norm_num) (by linarith) hy) b3 (by norm_num) (by norm_num)
    · have hH22 : H0 ≤ 2.2 := by
        by_contra hlt
        push Not at hlt
        have hE : (8.92 : ℝ) ≤ Real.exp 2.2 := exp_ge_of_pow (p := 11) (q := 5) (by norm_num) (by norm_num) (by norm_num)
        have hm : Real.exp (-2.2) ≤ 0.12 := by
          have : Real.exp (-2.2) * Real.exp 2.2 = 1 := by rw [← Real.exp_add]; norm_num
          nlinarith [Real.exp_pos (-2.2)]
        have hs : (4.4 : ℝ) ≤ Real.sinh 2.2 := by rw [Real.sinh_eq]; linarith
        have hc : (4.4 : ℝ) ≤ Real.cosh 2.2 := by rw [Real.cosh_eq]; linarith [Real.exp_pos (-2.2)]
        have ht := sinh_tangent (by norm_num : (0 : ℝ) ≤ 2.2) h0
        nlinarith
      have hN22 : N ≤ 2.2 := by linarith
      have hjump : x 0 ≤ 4.2 := by
        show newtonHypb N e H0 ≤ _
        have : -(2 : ℝ) ≤ kepler_equ_hypb H0 e N / dH H0 e := by
          rw [le_div_iff₀ hpos, hf]
          nlinarith
        rw [newtonHypb_eq, newton]
        linarith
      have b1 : x (0 + 4) ≤ 2.9 := below_after (n := 0) (m := 4) (g := newtonHypb N e) (d := 2 / 5) (B := 4.2) hstep
        hdec (fun y hy => hypb_descent' (n := 2.2) (b := 2.9) (by linarith) hN22 (by norm_num) (by norm_num) (by norm_num)
          (by norm_num) (by linarith) hy) hjump (by norm_num) (by norm_num)
      exact (antitone_nat_of_succ_le hdec (by norm_num : 0 + 4 ≤ 26)).trans b1
  have hhalve : ∀ k, kepler_equ_hypb (x (26 + k)) e N ≤ 8 * (1 / 2) ^ k := by
    intro k
    induction k with
    | zero =>
      simp only [add_zero, pow_zero, mul_one]
      have hmono := mono_of_deriv_nonneg (fun s => hasDerivAt_hypb s e N) (fun s _ => (dH_pos' he1 s).le)
        (left_mem_Icc.2 b29) (right_mem_Icc.2 b29) b29
      refine hmono.trans ?_
      simp only [kep_hypb_eq]
      have hE : Real.exp 2.9 ≤ 18.2 := by
        by_contra hlt
        push Not at hlt
        have h1 : (18.2 : ℝ) ^ 10 < Real.exp 2.9 ^ 10 := pow_lt_pow_left₀ hlt (by norm_num) (by norm_num)
        have h2 : Real.exp 2.9 ^ 10 = Real.exp 1 ^ 29 := by
          rw [← Real.exp_nat_mul, ← Real.exp_nat_mul]; norm_num
        have h3 : Real.exp 1 ^ 29 ≤ 2.7182818286 ^ 29 :=
          pow_le_pow_left₀ (Real.exp_pos 1).le Real.exp_one_lt_d9.le 29
        have h4 : (2.7182818286 : ℝ) ^ 29 ≤ 18.2 ^ 10 := by norm_num
        linarith
      have hs : Real.sinh 2.9 ≤ 9.1 := by rw [Real.sinh_eq]; linarith [Real.exp_pos (-2.9)]
      have hs0 : 0 ≤ Real.sinh 2.9 := Real.sinh_nonneg_iff.2 (by norm_num)
      have : e * Real.sinh 2.9 ≤ 2001 / 2000 * 9.1 := mul_le_mul he2 hs hs0 (by norm_num)
      norm_num at this ⊢
      linarith
    | succ k ih =>
      rw [← add_assoc, hstep, pow_succ]
      have := hypb_halve he1 hN (hin (26 + k)).1 (hin (26 + k)).2
      linarith
  obtain ⟨i, rfl⟩ : ∃ i, j = 26 + i + 1 := ⟨j - 27, by omega⟩
  show |kepler_equ_hypb (x (26 + i)) e N| ≤ _
  rw [abs_of_nonneg (hin _).2]
  refine (hhalve i).trans ?_
  have : (1 / 2 : ℝ) ^ i ≤ (1 / 2) ^ 23 := pow_le_pow_of_le_one (by norm_num) (by norm_num) (by omega)
  norm_num at this ⊢
  linarith

end

/-- C18 for hyperbolas, a smaller range than in `Props/C18k`: for every eccentricity of at least `1.00018` and every `|N| ≤ 10³⁰⁰`
the default call (50 iterations) meets its tolerance.
Missing from the full claim: eccentricities between 1 and 1.00018 (down to 1.0001: `C18_hypb_default_nearer_partial`). -/
theorem C18_hypb_default_near_partial {e : ℝ} (he : 50009 / 50000 ≤ e) (N : ℝ) (hN : |N| ≤ 10 ^ 300) (max_iter : ℕ := 50)
    (hn : 50 ≤ max_iter) :
    ∃ H, solve_kepler_hypb N e defaultTol max_iter = some H ∧ |kepler_equ_hypb H e N| ≤ 1 / 1000000 := by
  rcases le_total (2001 / 2000) e with he2 | he2
  · exact C18_hypb_default_low_partial he2 N hN max_iter (by omega)
  have htol : (defaultTol : ℝ) = 1 / 1000000 := by norm_num [defaultTol]
  have key : ∀ N : ℝ, 0 ≤ N → N ≤ 10 ^ 300 →
      ∃ H, solve_kepler_hypb N e defaultTol max_iter = some H ∧ |kepler_equ_hypb H e N| ≤ 1 / 1000000 := by
    intro N hN0 hN
    obtain ⟨k, hk, -, hs, -, hstop⟩ := C13_hypb N e defaultTol max_iter
    refine ⟨_, hs, ?_⟩
    rcases hk.lt_or_eq with h | rfl
    · have := hstop h
      simp only [lt_real, abs_real, decide_eq_false_iff_not, not_lt] at this
      rwa [htol] at this
    · rcases le_or_gt (hypbStart N e) N with hst | hst
      · exact hypb_fast_right (by linarith) (by linarith) hN0 hN hst k (by omega)
      · exact hypb_fast_left_near he he2 hN0 hst k hn
  rcases le_total 0 N with h | h
  · exact key N h (by rwa [abs_of_nonneg h] at hN)
  · obtain ⟨H, hH, hres⟩ := key (-N) (by linarith) (by rwa [abs_of_nonpos h] at hN)
    have hodd := C17_hypb_odd (-N) e defaultTol max_iter
    rw [neg_neg, hH] at hodd
    refine ⟨-H, hodd, ?_⟩
    have : kepler_equ_hypb (-H) e N = -kepler_equ_hypb H e (-N) := by
      rw [kep_hypb_eq, kep_hypb_eq, Real.sinh_neg]; ring
    rwa [this, abs_neg]

/-- A comet on a barely hyperbolic orbit, `e = 1.0002`, at every time. -/
example (N : ℝ) (hN : |N| ≤ 10 ^ 300) : ∃ H, solve_kepler_hypb N (5001 / 5000) defaultTol 50 = some H ∧
    |kepler_equ_hypb H (5001 / 5000) N| ≤ 1 / 1000000 :=
  C18_hypb_default_near_partial (by norm_num) N hN 50 (by norm_num)

end Adx
