import Verif.Props.C18h
import Verif.Props.C18j

/-! # C18, continued: hyperbolas down to eccentricity 1.0001

Close to the root each Newton step leaves at most 0.3825 of the residual. The descent from the first iterate is followed
step by step. -/

namespace Adx
open Set

/-- An inequality between the second derivatives gives one between the functions. -/
theorem xsinh_boot {k b : ℝ} (h : ∀ x ∈ Icc (0 : ℝ) b, 6 * k * (Real.cosh x - 1) + 4 * k * (Real.cosh x - 1) ^ 2 ≤ x * Real.sinh x) :
    ∀ x ∈ Icc (0 : ℝ) b, 2 * (Real.cosh x - 1) + k * (Real.cosh x - 1) ^ 2 ≤ x * Real.sinh x := by
  have d1 : ∀ s, HasDerivAt (fun s => s * Real.cosh s - Real.sinh s - 2 * k * ((Real.cosh s - 1) * Real.sinh s))
      (s * Real.sinh s - (6 * k * (Real.cosh s - 1) + 4 * k * (Real.cosh s - 1) ^ 2)) s := fun s => by
    have hc := Real.cosh_sq s
    refine ((((hasDerivAt_id' s).fun_mul (Real.hasDerivAt_cosh s)).fun_sub (Real.hasDerivAt_sinh s)).fun_sub
      ((((Real.hasDerivAt_cosh s).sub_const 1).fun_mul (Real.hasDerivAt_sinh s)).const_mul (2 * k))).congr_deriv ?_
    have : Real.sinh s * Real.sinh s = Real.cosh s ^ 2 - 1 := by rw [hc]; ring
    rw [this]
    ring
  have d0 : ∀ s, HasDerivAt (fun s => s * Real.sinh s - 2 * (Real.cosh s - 1) - k * (Real.cosh s - 1) ^ 2)
      (s * Real.cosh s - Real.sinh s - 2 * k * ((Real.cosh s - 1) * Real.sinh s)) s := fun s => by
    refine ((((hasDerivAt_id' s).fun_mul (Real.hasDerivAt_sinh s)).fun_sub
      (((Real.hasDerivAt_cosh s).sub_const 1).const_mul 2)).fun_sub
      ((((Real.hasDerivAt_cosh s).sub_const 1).fun_pow 2).const_mul k)).congr_deriv ?_
    push_cast
    ring
  intro x hx
  have h1 : ∀ s ∈ Icc (0 : ℝ) x, 0 ≤ s * Real.cosh s - Real.sinh s - 2 * k * ((Real.cosh s - 1) * Real.sinh s) := fun s hs => by
    have := mono_of_deriv_nonneg d1 (a := 0) (b := s) (fun u hu => sub_nonneg.2 (h u ⟨hu.1, hu.2.trans (hs.2.trans hx.2)⟩))
      (left_mem_Icc.2 hs.1) (right_mem_Icc.2 hs.1) hs.1
    simpa using this
  have := mono_of_deriv_nonneg d0 h1 (left_mem_Icc.2 hx.1) (right_mem_Icc.2 hx.1) hx.1
  simp at this
  linarith

theorem cosh_le_of_mem {x b : ℝ} (hx : x ∈ Icc (0 : ℝ) b) : 1 ≤ Real.cosh x ∧ Real.cosh x ≤ Real.cosh b :=
  ⟨Real.one_le_cosh x, Real.cosh_le_cosh.2 (by rw [abs_of_nonneg hx.1, abs_of_nonneg (hx.1.trans hx.2)]; exact hx.2)⟩

/-- The bound near the origin. -/
theorem xsinh_small {b : ℝ} (hb : Real.cosh b - 1 ≤ 0.015) : ∀ x ∈ Icc (0 : ℝ) b,
    2 * (Real.cosh x - 1) + 0.33 * (Real.cosh x - 1) ^ 2 ≤ x * Real.sinh x := by
  refine xsinh_boot fun x hx => ?_
  have h1 := two_cosh_le hx.1
  obtain ⟨h2, h3⟩ := cosh_le_of_mem hx
  nlinarith

/-- The bound up to 1.05. -/
theorem xsinh_mid {b : ℝ} (hb : Real.cosh b - 1 ≤ 0.64) : ∀ x ∈ Icc (0 : ℝ) b,
    2 * (Real.cosh x - 1) + 0.25 * (Real.cosh x - 1) ^ 2 ≤ x * Real.sinh x := by
  have h0 := xsinh_boot (k := 0.23) (b := b) fun x hx => by
    have h1 := two_cosh_le hx.1
    obtain ⟨h2, h3⟩ := cosh_le_of_mem hx
    nlinarith
  refine xsinh_boot fun x hx => ?_
  have h1 := h0 x hx
  obtain ⟨h2, h3⟩ := cosh_le_of_mem hx
  nlinarith

theorem exp_105 : Real.exp 1.05 ≤ 2.85766 := by
  have := exp_ratio_le (p := 21) (q := 20) (U := 2.85766) (by norm_num) (by norm_num) (by norm_num)
  norm_num at this ⊢
  exact this

theorem exp_105_ge : 2.857 ≤ Real.exp 1.05 :=
  exp_ge_of_pow (p := 21) (q := 20) (by norm_num) (by norm_num) (by norm_num)

theorem exp_neg_105 : Real.exp (-1.05) ≤ 0.3501 ∧ 0.3499 ≤ Real.exp (-1.05) := by
  have h : Real.exp (-1.05) * Real.exp 1.05 = 1 := by rw [← Real.exp_add]; norm_num
  have h1 := exp_105
  have h2 := exp_105_ge
  have h0 := Real.exp_pos (-1.05)
  constructor <;> nlinarith

theorem exp_ge_near {p q : ℕ} {a c : ℝ} (hq : q ≠ 0) (h : c ^ q ≤ 2.718 ^ p) (hc : 0 ≤ c) :
    c * (1 + (a - p / q)) ≤ Real.exp a := by
  have hq' : (q : ℝ) ≠ 0 := by exact_mod_cast hq
  have h1 : c ≤ Real.exp (p / q) := exp_ge_of_pow (p := p) (q := q) (div_mul_cancel₀ _ hq') hq h
  have h2 : Real.exp a = Real.exp (p / q) * Real.exp (a - p / q) := by rw [← Real.exp_add]; ring_nf
  have h3 := Real.add_one_le_exp (a - p / q)
  rw [h2]
  calc c * (1 + (a - p / q)) ≤ c * Real.exp (a - p / q) := mul_le_mul_of_nonneg_left (by linarith) hc
    _ ≤ _ := mul_le_mul_of_nonneg_right h1 (Real.exp_pos _).le

/-- A step from right of the root, at `a` or below, leads to `c` or below. -/
theorem hypb_step_le {N e n a c L x : ℝ} (he : 1 < e) (hN : N ≤ n) (hn : 0 ≤ n) (hc : 0 ≤ c) (hca : c < a) (hca1 : a - c ≤ 1)
    (hL : L ≤ Real.exp a) (hL0 : 0 < L) (hg : ((a - c - 1) * L + (a - c + 1) / L) / 2 + c + n ≤ 0)
    (hx : x ≤ a) (hf : 0 ≤ kepler_equ_hypb x e N) : newtonHypb N e x ≤ c := by
  have hpos := dH_pos' he x
  rw [newtonHypb_eq, newton]
  rcases le_total x c with hxc | hxc
  · have := div_nonneg hf hpos.le
    linarith
  have hG : ∀ y, HasDerivAt (fun y => (y - c) * (e * Real.cosh y - 1) - (e * Real.sinh y - y - N))
      ((y - c) * (e * Real.sinh y)) y := by
    intro y
    have h1 := ((hasDerivAt_id' y).sub_const c).fun_mul (((Real.hasDerivAt_cosh y).const_mul e).sub_const 1)
    have h2 := ((((Real.hasDerivAt_sinh y).const_mul e).fun_sub (hasDerivAt_id' y)).sub_const N)
    refine (h1.fun_sub h2).congr_deriv ?_
    ring
  have hmono := mono_of_deriv_nonneg hG (a := x) (b := a) (fun y hy => by
    have : 0 ≤ Real.sinh y := Real.sinh_nonneg_iff.2 (by linarith [hy.1])
    exact mul_nonneg (by linarith [hy.1]) (mul_nonneg (by linarith) this)) (left_mem_Icc.2 hx) (right_mem_Icc.2 hx) hx
  simp only at hmono
  have ha : (a - c) * (e * Real.cosh a - 1) - (e * Real.sinh a - a - N) ≤ 0 := by
    have hE := Real.exp_pos a
    have h1 : (a - c - 1) * Real.exp a ≤ (a - c - 1) * L := mul_le_mul_of_nonpos_left hL (by linarith)
    have h2 : (a - c + 1) * Real.exp (-a) ≤ (a - c + 1) / L := by
      rw [Real.exp_neg, ← div_eq_mul_inv]
      exact div_le_div_of_nonneg_left (by linarith) hL0 hL
    have h3 : (a - c - 1) * Real.exp a + (a - c + 1) * Real.exp (-a) ≤ -2 * (c + n) := by linarith
    have h4 : e * ((a - c - 1) * Real.exp a + (a - c + 1) * Real.exp (-a)) ≤ e * (-2 * (c + n)) :=
      mul_le_mul_of_nonneg_left h3 (by linarith)
    have h5 : 0 ≤ (e - 1) * (c + n) := mul_nonneg (by linarith) (by linarith)
    rw [Real.cosh_eq, Real.sinh_eq]
    linarith
  have h6 : x - c ≤ kepler_equ_hypb x e N / dH x e := by
    rw [le_div_iff₀ hpos, kep_hypb_eq, dH_eq]
    linarith
  linarith

/-- The inequality behind `hypb_shrink`, with `g = cosh x - 1`, `d = e - 1` and `p = x sinh x`. -/
theorem shrink_poly {g d p : ℝ} (hg0 : 0 ≤ g) (hd0 : 0 ≤ d) (hd1 : d ≤ 0.00018) (hb : g ≤ 0.64) (hp2 : 2 * g ≤ p)
    (hmid : 2 * g + 0.25 * g ^ 2 ≤ p) (hsmall : g ≤ 0.015 → 2 * g + 0.33 * g ^ 2 ≤ p) :
    (1 + d) ^ 2 * (g ^ 2 + 2 * g) - (1 + d) * p ≤ 0.765 * (g + d * (1 + g)) ^ 2 := by
  have hdp := mul_nonneg hd0 (sub_nonneg.2 hp2)
  have hred : ∀ k : ℝ, 2 * g + k * g ^ 2 ≤ p →
      0 ≤ (k - 0.235) * g ^ 2 - 0.47 * (d * (g * (1 + g))) + d ^ 2 * (0.765 - 0.235 * (g ^ 2 + 2 * g)) →
      (1 + d) ^ 2 * (g ^ 2 + 2 * g) - (1 + d) * p ≤ 0.765 * (g + d * (1 + g)) ^ 2 := by
    intro k h1 h2
    linarith
  rcases le_total g 0.015 with hsm | hlg
  · refine hred 0.33 (hsmall hsm) ?_
    have k1 : d * (g * (1 + g)) ≤ d * (g * 1.015) :=
      mul_le_mul_of_nonneg_left (mul_le_mul_of_nonneg_left (by linarith) hg0) hd0
    have k2 : d ^ 2 * (g ^ 2 + 2 * g) ≤ d ^ 2 * 0.031 := mul_le_mul_of_nonneg_left (by nlinarith) (sq_nonneg d)
    have k3 := sq_nonneg (0.3 * g - 0.8 * d)
    linarith [sq_nonneg d, sq_nonneg g, mul_nonneg hd0 hg0]
  · refine hred 0.25 hmid ?_
    have k0 : d ≤ 0.012 * g := by linarith
    have k1 : d * (g * (1 + g)) ≤ 0.012 * g * (g * 1.64) :=
      mul_le_mul k0 (mul_le_mul_of_nonneg_left (by linarith) hg0) (by positivity) (by linarith)
    have k2 : 0 ≤ d ^ 2 * (0.765 - 0.235 * (g ^ 2 + 2 * g)) := mul_nonneg (sq_nonneg d) (by nlinarith)
    linarith [sq_nonneg g]

section
variable {N e : ℝ} (he : 1 < e) (he2 : e ≤ 1.00018) (hN : 0 ≤ N)
include he he2 hN

/-- Right of the root and below 1.05 a step leaves at most 0.3825 of the residual. -/
theorem hypb_shrink {x : ℝ} (hx : 0 ≤ x) (hx1 : x ≤ 1.05) (hf : 0 ≤ kepler_equ_hypb x e N) :
    kepler_equ_hypb (newtonHypb N e x) e N ≤ 0.3825 * kepler_equ_hypb x e N := by
  have hpos := dH_pos' he x
  obtain ⟨t, ht⟩ : ∃ t, t = kepler_equ_hypb x e N / dH x e := ⟨_, rfl⟩
  have ht0 : 0 ≤ t := by rw [ht]; exact div_nonneg hf hpos.le
  have hft : kepler_equ_hypb x e N = t * dH x e := by rw [ht, div_mul_cancel₀ _ hpos.ne']
  have hn : newtonHypb N e x = x - t := by rw [newtonHypb_eq, newton, ← ht]
  have hs0 : 0 ≤ Real.sinh x := Real.sinh_nonneg_iff.2 hx
  have hT := mul_le_mul_of_nonneg_left (sinh_left_taylor x ht0) (show 0 ≤ e by linarith)
  have hkey : t * (e * Real.sinh x) ≤ 0.765 * dH x e := by
    refine le_of_mul_le_mul_right ?_ hpos
    have h1 : t * (e * Real.sinh x) * dH x e = kepler_equ_hypb x e N * (e * Real.sinh x) := by rw [hft]; ring
    rw [h1, kep_hypb_eq, dH_eq]
    have h3 := mul_nonneg hN (mul_nonneg (show 0 ≤ e by linarith) hs0)
    have hcs := Real.cosh_sq x
    have h2c := two_cosh_le hx
    have hc1 := Real.one_le_cosh x
    have hb : Real.cosh x - 1 ≤ 0.64 := by
      have hm : Real.cosh x ≤ Real.cosh 1.05 := (cosh_le_of_mem ⟨hx, hx1⟩).2
      have := exp_105
      have := exp_neg_105.1
      rw [Real.cosh_eq 1.05] at hm
      linarith
    have hmid := xsinh_mid hb x ⟨hx, le_rfl⟩
    obtain ⟨g, hg⟩ : ∃ g, g = Real.cosh x - 1 := ⟨_, rfl⟩
    obtain ⟨d, hd⟩ : ∃ d, d = e - 1 := ⟨_, rfl⟩
    obtain ⟨p, hp⟩ : ∃ p, p = x * Real.sinh x := ⟨_, rfl⟩
    have hc : Real.cosh x = g + 1 := by linarith
    have he3 : e = 1 + d := by linarith
    have hss : Real.sinh x * Real.sinh x = g ^ 2 + 2 * g := by
      have : Real.sinh x * Real.sinh x = Real.cosh x ^ 2 - 1 := by rw [hcs]; ring
      rw [this, hc]; ring
    have hg0 : 0 ≤ g := by linarith
    have hd0 : 0 ≤ d := by linarith
    have hd1 : d ≤ 0.00018 := by linarith
    have hp2 : 2 * g ≤ p := by rw [hp]; linarith
    rw [← hg] at hmid hb
    rw [← hp] at hmid
    have hexp : (e * Real.sinh x - x - N) * (e * Real.sinh x)
        = (1 + d) ^ 2 * (g ^ 2 + 2 * g) - (1 + d) * p - N * (e * Real.sinh x) := by
      rw [← hss, hp, ← he3]; ring
    have hden : 0.765 * (e * Real.cosh x - 1) * (e * Real.cosh x - 1) = 0.765 * (g + d * (1 + g)) ^ 2 := by
      rw [hc, he3]; ring
    rw [hexp, hden]
    have hmain := shrink_poly hg0 hd0 hd1 hb hp2 hmid fun hsm => by
      have hsmall := xsinh_small (b := x) (by rw [← hg]; exact hsm) x ⟨hx, le_rfl⟩
      rwa [← hg, ← hp] at hsmall
    linarith
  have h5 := mul_le_mul_of_nonneg_left hkey ht0
  rw [hn, hft, kep_hypb_eq]
  rw [kep_hypb_eq, dH_eq] at hft
  rw [dH_eq] at h5 ⊢
  nlinarith

end

section
variable {N e : ℝ} (he : 1.0001 ≤ e) (he2 : e ≤ 1.00018) (hN : 0 ≤ N)
include he he2 hN

/-- The starting value left of the root, `1.0001 ≤ e ≤ 1.00018`. -/
theorem hypb_fast_left_nearer (hstart : N < hypbStart N e) (j : ℕ) (hj : 50 ≤ j) :
    |kepler_equ_hypb ((newtonHypb N e)^[j] (hypbStart N e)) e N| ≤ 1 / 1000000 := by
  have he1 : 1 < e := by linarith
  have hu0 : 0 ≤ 2 * N / e := by positivity
  have hH0 : hypbStart N e = Real.arsinh (2 * N / e) := hypbStart_eq N e
  have hes : e * Real.sinh (hypbStart N e) = 2 * N := by
    rw [hH0, Real.sinh_arsinh]; field_simp
  set H0 := hypbStart N e with hHdef
  have h0 : 0 ≤ H0 := by rw [hH0]; exact Real.arsinh_nonneg_iff.2 hu0
  have hf : kepler_equ_hypb H0 e N = N - H0 := by rw [kep_hypb_eq, hes]; ring
  have hsp : H0 ≤ Real.sinh H0 := Real.self_le_sinh_iff.2 h0
  have hpos := dH_pos' he1 H0
  have hcosh : 1 + H0 ^ 2 / 2 ≤ Real.cosh H0 := quad_le_cosh h0
  have hhalf : H0 - N ≤ H0 / 2 := by nlinarith
  have hden : 1 / 10000 + H0 ^ 2 / 2 ≤ dH H0 e := by rw [dH_eq]; nlinarith [sq_nonneg H0]
  set x : ℕ → ℝ := fun k => (newtonHypb N e)^[k + 1] H0 with hx
  have hstep : ∀ k, x (k + 1) = newtonHypb N e (x k) := fun k => by
    simp only [hx, Function.iterate_succ_apply']
  have hin : ∀ k, 0 ≤ x k ∧ 0 ≤ kepler_equ_hypb (x k) e N := by
    intro k
    induction k with
    | zero => exact hypb_next he1 hN h0
    | succ k ih => rw [hstep]; exact hypb_next he1 hN ih.1
  have hdec : ∀ k, x (k + 1) ≤ x k := fun k => by
    have := div_nonneg (hin k).2 (dH_pos' he1 (x k)).le
    rw [hstep, newtonHypb_eq, newton]; linarith
  obtain ⟨i, rfl⟩ : ∃ i, j = i + 1 := ⟨j - 1, by omega⟩
  show |kepler_equ_hypb (x i) e N| ≤ _
  rw [abs_of_nonneg (hin _).2]
  have hmonof : ∀ {u v : ℝ}, u ≤ v → kepler_equ_hypb u e N ≤ kepler_equ_hypb v e N := fun {u v} huv =>
    mono_of_deriv_nonneg (fun s => hasDerivAt_hypb s e N) (fun s _ => (dH_pos' he1 s).le)
      (left_mem_Icc.2 huv) (right_mem_Icc.2 huv) huv
  rcases le_total N (1 / 20) with hsm | hlg
  · have hjump : x 0 ≤ 35.46 := by
      show newtonHypb N e H0 ≤ _
      have : -(35.36 : ℝ) ≤ kepler_equ_hypb H0 e N / dH H0 e := by
        rw [le_div_iff₀ hpos, hf]
        have h3 : H0 / 2 ≤ 35.36 * (1 / 10000 + H0 ^ 2 / 2) := by nlinarith [sq_nonneg (H0 - 1 / 70.72)]
        linarith
      rw [newtonHypb_eq, newton]
      linarith
    have e11 : (95000 : ℝ) ≤ Real.exp 11.468 := by
      have := exp_ge_near (p := 229) (q := 20) (a := 11.468) (c := 93772) (by norm_num) (by norm_num) (by norm_num)
      norm_num at this ⊢
      linarith
    have b24 : x (0 + 24) ≤ 11.468 := below_after (n := 0) (m := 24) (g := newtonHypb N e) (d := 0.9997) (B := 35.46) hstep
      hdec (fun y hy => hypb_descent' (n := 1 / 20) (b := 11.468) (by linarith) hsm (by norm_num) (by norm_num) (by norm_num)
        (by norm_num) (by norm_num at e11 ⊢; linarith) hy) hjump (by norm_num) (by norm_num)
    rw [zero_add] at b24
    have b25 : x 25 ≤ 10.469 := by
      rw [hstep 24]
      exact hypb_step_le (n := 1 / 20) (a := 11.468) he1 hsm (by norm_num) (by norm_num) (by norm_num) (by norm_num)
        (exp_ge_near (p := 229) (q := 20) (c := 9377232559/100000) (by norm_num) (by norm_num) (by norm_num))
        (by norm_num) (by norm_num) b24 (hin 24).2
    have b26 : x 26 ≤ 9.47 := by
      rw [hstep 25]
      exact hypb_step_le (n := 1 / 20) (a := 10.469) he1 hsm (by norm_num) (by norm_num) (by norm_num) (by norm_num)
        (exp_ge_near (p := 209) (q := 20) (c := 1725052803/50000) (by norm_num) (by norm_num) (by norm_num))
        (by norm_num) (by norm_num) b25 (hin 25).2
    have b27 : x 27 ≤ 8.472 := by
      rw [hstep 26]
      exact hypb_step_le (n := 1 / 20) (a := 9.47) he1 hsm (by norm_num) (by norm_num) (by norm_num) (by norm_num)
        (exp_ge_near (p := 189) (q := 20) (c := 63468771/5000) (by norm_num) (by norm_num) (by norm_num))
        (by norm_num) (by norm_num) b26 (hin 26).2
    have b28 : x 28 ≤ 7.476 := by
      rw [hstep 27]
      exact hypb_step_le (n := 1 / 20) (a := 8.472) he1 hsm (by norm_num) (by norm_num) (by norm_num) (by norm_num)
        (exp_ge_near (p := 169) (q := 20) (c := 467033221/100000) (by norm_num) (by norm_num) (by norm_num))
        (by norm_num) (by norm_num) b27 (hin 27).2
    have b29 : x 29 ≤ 6.484 := by
      rw [hstep 28]
      exact hypb_step_le (n := 1 / 20) (a := 7.476) he1 hsm (by norm_num) (by norm_num) (by norm_num) (by norm_num)
        (exp_ge_near (p := 150) (q := 20) (c := 180641517/100000) (by norm_num) (by norm_num) (by norm_num))
        (by norm_num) (by norm_num) b28 (hin 28).2
    have b30 : x 30 ≤ 5.502 := by
      rw [hstep 29]
      exact hypb_step_le (n := 1 / 20) (a := 6.484) he1 hsm (by norm_num) (by norm_num) (by norm_num) (by norm_num)
        (exp_ge_near (p := 130) (q := 20) (c := 33231141/50000) (by norm_num) (by norm_num) (by norm_num))
        (by norm_num) (by norm_num) b29 (hin 29).2
    have b31 : x 31 ≤ 4.54 := by
      rw [hstep 30]
      exact hypb_step_le (n := 1 / 20) (a := 5.502) he1 hsm (by norm_num) (by norm_num) (by norm_num) (by norm_num)
        (exp_ge_near (p := 110) (q := 20) (c := 24453043/100000) (by norm_num) (by norm_num) (by norm_num))
        (by norm_num) (by norm_num) b30 (hin 30).2
    have b32 : x 32 ≤ 3.619 := by
      rw [hstep 31]
      exact hypb_step_le (n := 1 / 20) (a := 4.54) he1 hsm (by norm_num) (by norm_num) (by norm_num) (by norm_num)
        (exp_ge_near (p := 227) (q := 50) (c := 374559/4000) (by norm_num) (by norm_num) (by norm_num))
        (by norm_num) (by norm_num) b31 (hin 31).2
    have b33 : x 33 ≤ 2.772 := by
      rw [hstep 32]
      exact hypb_step_le (n := 1 / 20) (a := 3.619) he1 hsm (by norm_num) (by norm_num) (by norm_num) (by norm_num)
        (exp_ge_near (p := 181) (q := 50) (c := 1866067/50000) (by norm_num) (by norm_num) (by norm_num))
        (by norm_num) (by norm_num) b32 (hin 32).2
    have b34 : x 34 ≤ 2.041 := by
      rw [hstep 33]
      exact hypb_step_le (n := 1 / 20) (a := 2.772) he1 hsm (by norm_num) (by norm_num) (by norm_num) (by norm_num)
        (exp_ge_near (p := 139) (q := 50) (c := 402841/25000) (by norm_num) (by norm_num) (by norm_num))
        (by norm_num) (by norm_num) b33 (hin 33).2
    have b35 : x 35 ≤ 1.461 := by
      rw [hstep 34]
      exact hypb_step_le (n := 1 / 20) (a := 2.041) he1 hsm (by norm_num) (by norm_num) (by norm_num) (by norm_num)
        (exp_ge_near (p := 102) (q := 50) (c := 96109/12500) (by norm_num) (by norm_num) (by norm_num))
        (by norm_num) (by norm_num) b34 (hin 34).2
    have b36 : x 36 ≤ 1.05 := by
      rw [hstep 35]
      exact hypb_step_le (n := 1 / 20) (a := 1.461) he1 hsm (by norm_num) (by norm_num) (by norm_num) (by norm_num)
        (exp_ge_near (p := 73) (q := 50) (c := 10763/2500) (by norm_num) (by norm_num) (by norm_num))
        (by norm_num) (by norm_num) b35 (hin 35).2
    have hshr : ∀ k, kepler_equ_hypb (x (36 + k)) e N ≤ 0.2043 * 0.3825 ^ k := by
      intro k
      induction k with
      | zero =>
        simp only [add_zero, pow_zero, mul_one]
        refine (hmonof b36).trans ?_
        rw [kep_hypb_eq]
        have hs : Real.sinh 1.05 ≤ 1.25388 := by rw [Real.sinh_eq]; linarith [exp_105, exp_neg_105.2]
        have hs0 : 0 ≤ Real.sinh 1.05 := Real.sinh_nonneg_iff.2 (by norm_num)
        have : e * Real.sinh 1.05 ≤ 1.00018 * 1.25388 := mul_le_mul he2 hs hs0 (by norm_num)
        linarith
      | succ k ih =>
        rw [← add_assoc, hstep, pow_succ]
        have h1 := hypb_shrink he1 he2 hN (hin (36 + k)).1
          ((antitone_nat_of_succ_le hdec (by omega : 36 ≤ 36 + k)).trans b36) (hin (36 + k)).2
        linarith
    obtain ⟨l, rfl⟩ : ∃ l, i = 36 + l := ⟨i - 36, by omega⟩
    refine (hshr l).trans ?_
    have : (0.3825 : ℝ) ^ l ≤ 0.3825 ^ 13 := pow_le_pow_of_le_one (by norm_num) (by norm_num) (by omega)
    norm_num at this ⊢
    linarith
  · have hH22 : H0 ≤ 2.2 := by
      by_contra hlt
      push Not at hlt
      have hE : (8.92 : ℝ) ≤ Real.exp 2.2 := exp_ge_of_pow (p := 11) (q := 5) (by norm_num) (by norm_num) (by norm_num)
      have hm : Real.exp (-2.2) ≤ 0.12 := by
        have : Real.exp (-2.2) * Real.exp 2.2 = 1 := by rw [← Real.exp_add]; norm_num
        nlinarith [Real.exp_pos (-2.2)]
      have hs : (4.4 : ℝ) ≤ Real.sinh 2.2 := by rw [Real.sinh_eq]; linarith
      have hc : (4.4 : ℝ) ≤ Real.cosh 2.2 := by rw [Real.cosh_eq]; linarith [Real.exp_pos (-2.2)]
      have ht := sinh_tangent (by norm_num : (0 : ℝ) ≤ 2.2) h0
      nlinarith
    have hN22 : N ≤ 2.2 := by linarith
    have hjump : x 0 ≤ 22.2 := by
      show newtonHypb N e H0 ≤ _
      have : -(20 : ℝ) ≤ kepler_equ_hypb H0 e N / dH H0 e := by
        rw [le_div_iff₀ hpos, hf]
        nlinarith
      rw [newtonHypb_eq, newton]
      linarith
    have e8 : (2950 : ℝ) ≤ Real.exp 8 := exp_ge_of_pow (p := 8) (q := 1) (by norm_num) (by norm_num) (by norm_num)
    have e53 : (196 : ℝ) ≤ Real.exp 5.3 := exp_ge_of_pow (p := 53) (q := 10) (by norm_num) (by norm_num) (by norm_num)
    have e38 : (44 : ℝ) ≤ Real.exp 3.8 := exp_ge_of_pow (p := 19) (q := 5) (by norm_num) (by norm_num) (by norm_num)
    have e29 : (18 : ℝ) ≤ Real.exp 2.9 := exp_ge_of_pow (p := 29) (q := 10) (by norm_num) (by norm_num) (by norm_num)
    have c1 : x (0 + 15) ≤ 8 := below_after (n := 0) (m := 15) (g := newtonHypb N e) (d := 99 / 100) (B := 22.2) hstep
      hdec (fun y hy => hypb_descent' (n := 2.2) (b := 8) (by linarith) hN22 (by norm_num) (by norm_num) (by norm_num)
        (by norm_num) (by linarith) hy) hjump (by norm_num) (by norm_num)
    have c2 : x (15 + 3) ≤ 5.3 := below_after (g := newtonHypb N e) (d := 9 / 10) (B := 8) hstep hdec
      (fun y hy => hypb_descent' (n := 2.2) (b := 5.3) (by linarith) hN22 (by norm_num) (by norm_num) (by norm_num)
        (by norm_num) (by linarith) hy) c1 (by norm_num) (by norm_num)
    have c3 : x (18 + 3) ≤ 3.8 := below_after (g := newtonHypb N e) (d := 7 / 10) (B := 5.3) hstep hdec
      (fun y hy => hypb_descent' (n := 2.2) (b := 3.8) (by linarith) hN22 (by norm_num) (by norm_num) (by norm_num)
        (by norm_num) (by linarith) hy) c2 (by norm_num) (by norm_num)
    have c4 : x (21 + 3) ≤ 2.9 := below_after (n := 21) (m := 3) (g := newtonHypb N e) (d := 2 / 5) (B := 3.8) hstep hdec
      (fun y hy => hypb_descent' (n := 2.2) (b := 2.9) (by linarith) hN22 (by norm_num) (by norm_num) (by norm_num)
        (by norm_num) (by linarith) hy) c3 (by norm_num) (by norm_num)
    have hhalve : ∀ k, kepler_equ_hypb (x (24 + k)) e N ≤ 8 * (1 / 2) ^ k := by
      intro k
      induction k with
      | zero =>
        simp only [add_zero, pow_zero, mul_one]
        refine (hmonof c4).trans ?_
        rw [kep_hypb_eq]
        have hE : Real.exp 2.9 ≤ 18.2 := by
          have := exp_ratio_le (p := 29) (q := 10) (U := 18.2) (by norm_num) (by norm_num) (by norm_num)
          norm_num at this ⊢
          exact this
        have hs : Real.sinh 2.9 ≤ 9.1 := by rw [Real.sinh_eq]; linarith [Real.exp_pos (-2.9)]
        have hs0 : 0 ≤ Real.sinh 2.9 := Real.sinh_nonneg_iff.2 (by norm_num)
        have : e * Real.sinh 2.9 ≤ 1.00018 * 9.1 := mul_le_mul he2 hs hs0 (by norm_num)
        norm_num at this ⊢
        linarith
      | succ k ih =>
        rw [← add_assoc, hstep, pow_succ]
        have := hypb_halve he1 hN (hin (24 + k)).1 (hin (24 + k)).2
        linarith
    obtain ⟨l, rfl⟩ : ∃ l, i = 24 + l := ⟨i - 24, by omega⟩
    refine (hhalve l).trans ?_
    have : (1 / 2 : ℝ) ^ l ≤ (1 / 2) ^ 25 := pow_le_pow_of_le_one (by norm_num) (by norm_num) (by omega)
    norm_num at this ⊢
    linarith

end

/-- C18 for hyperbolas, the widest range proved: for every eccentricity of at least `1.0001` and every `|N| ≤ 10³⁰⁰` the
default call (50 iterations) meets its tolerance.
Missing from the full claim: eccentricities between 1 and 1.0001 (false up to 1.0000617 by
`C18_hypb_default_wide_refuted`). -/
theorem C18_hypb_default_nearer_partial {e : ℝ} (he : 1.0001 ≤ e) (N : ℝ) (hN : |N| ≤ 10 ^ 300) (max_iter : ℕ := 50)
    (hn : 50 ≤ max_iter) :
    ∃ H, solve_kepler_hypb N e defaultTol max_iter = some H ∧ |kepler_equ_hypb H e N| ≤ 1 / 1000000 := by
  rcases le_total 1.00018 e with he2 | he2
  · exact C18_hypb_default_near_partial (by norm_num at he2 ⊢; linarith) N hN max_iter hn
  have htol : (defaultTol : ℝ) = 1 / 1000000 := by norm_num [defaultTol]
  have key : ∀ N : ℝ, 0 ≤ N → N ≤ 10 ^ 300 →
      ∃ H, solve_kepler_hypb N e defaultTol max_iter = some H ∧ |kepler_equ_hypb H e N| ≤ 1 / 1000000 := by
    intro N hN0 hN
    obtain ⟨k, hk, -, hs, -, hstop⟩ := C13_hypb N e defaultTol max_iter
    refine ⟨_, hs, ?_⟩
    rcases hk.lt_or_eq with h | rfl
    · have := hstop h
      simp only [lt_real, abs_real, decide_eq_false_iff_not, not_lt] at this
      rwa [htol] at this
    · rcases le_or_gt (hypbStart N e) N with hst | hst
      · exact hypb_fast_right (by linarith) (by linarith) hN0 hN hst k (by omega)
      · exact hypb_fast_left_nearer he he2 hN0 hst k hn
  rcases le_total 0 N with h | h
  · exact key N h (by rwa [abs_of_nonneg h] at hN)
  · obtain ⟨H, hH, hres⟩ := key (-N) (by linarith) (by rwa [abs_of_nonpos h] at hN)
    have hodd := C17_hypb_odd (-N) e defaultTol max_iter
    rw [neg_neg, hH] at hodd
    refine ⟨-H, hodd, ?_⟩
    have : kepler_equ_hypb (-H) e N = -kepler_equ_hypb H e (-N) := by
      rw [kep_hypb_eq, kep_hypb_eq, Real.sinh_neg]; ring
    rwa [this, abs_neg]

/-- `e = 1.0001` itself, at every time. -/
example (N : ℝ) (hN : |N| ≤ 10 ^ 300) : ∃ H, solve_kepler_hypb N 1.0001 defaultTol 50 = some H ∧
    |kepler_equ_hypb H 1.0001 N| ≤ 1 / 1000000 :=
  C18_hypb_default_nearer_partial le_rfl N hN 50 le_rfl

end Adx
