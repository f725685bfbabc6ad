import Verif.Props.C55b

/-! # C55, continued: every phase of the orbit up to eccentricity 0.785 -/

namespace Adx
open Set Spec

/-- The tangent of the sine lies above it on `[0, π]`. -/
theorem sin_le_tangent {u d : ℝ} (hu0 : 0 ≤ u) (hu : u ≤ Real.pi) (hd0 : 0 ≤ d) (hd : d ≤ Real.pi) :
    Real.sin d ≤ Real.sin u + (d - u) * Real.cos u := by
  have hd1 : ∀ s, HasDerivAt (fun s => s * Real.cos u - Real.sin s) (Real.cos u - Real.cos s) s := fun s => by
    simpa using ((hasDerivAt_id' s).mul_const (Real.cos u)).fun_sub (Real.hasDerivAt_sin s)
  have hd2 : ∀ s, HasDerivAt (fun s => Real.sin s - s * Real.cos u) (Real.cos s - Real.cos u) s := fun s => by
    simpa using (Real.hasDerivAt_sin s).fun_sub ((hasDerivAt_id' s).mul_const (Real.cos u))
  rcases le_total u d with h | h
  · have := mono_of_deriv_nonneg hd1 (a := u) (b := d)
      (fun s hs => sub_nonneg.2 (Real.cos_le_cos_of_nonneg_of_le_pi hu0 (hs.2.trans hd) hs.1))
      (left_mem_Icc.2 h) (right_mem_Icc.2 h) h
    simp only at this
    linarith
  · have := mono_of_deriv_nonneg hd2 (a := d) (b := u)
      (fun s hs => sub_nonneg.2 (Real.cos_le_cos_of_nonneg_of_le_pi (hd0.trans hs.1) hu hs.2))
      (left_mem_Icc.2 h) (right_mem_Icc.2 h) h
    simp only at this
    linarith

/-- `0 ≤ sin y - y cos y ≤ y^3/3` on `[0, π/2]`. -/
theorem sin_sub_mul_cos {y : ℝ} (h0 : 0 ≤ y) (h1 : y ≤ Real.pi / 2) :
    0 ≤ Real.sin y - y * Real.cos y ∧ Real.sin y - y * Real.cos y ≤ y ^ 3 / 3 := by
  have hs : ∀ s, HasDerivAt (fun s => Real.sin s - s * Real.cos s) (s * Real.sin s) s := fun s => by
    refine ((Real.hasDerivAt_sin s).fun_sub ((hasDerivAt_id' s).fun_mul (Real.hasDerivAt_cos s))).congr_deriv ?_
    ring
  have ht : ∀ s, HasDerivAt (fun s => s ^ 3 / 3 - (Real.sin s - s * Real.cos s)) (s ^ 2 - s * Real.sin s) s := fun s => by
    refine (((hasDerivAt_pow 3 s).div_const 3).fun_sub (hs s)).congr_deriv ?_
    norm_num
  have hp := Real.pi_pos
  constructor
  · have := mono_of_deriv_nonneg hs (a := 0) (b := y)
      (fun s hs => mul_nonneg hs.1 (Real.sin_nonneg_of_nonneg_of_le_pi hs.1 (by linarith [hs.2])))
      (left_mem_Icc.2 h0) (right_mem_Icc.2 h0) h0
    simpa using this
  · have := mono_of_deriv_nonneg ht (a := 0) (b := y)
      (fun s hs => by nlinarith [Real.sin_le hs.1, hs.1])
      (left_mem_Icc.2 h0) (right_mem_Icc.2 h0) h0
    simp at this
    linarith

section
variable {e M a : ℝ} (h0 : 0 ≤ e) (h1 : e ≤ 157 / 200) (hroot : kepler_equ_elps a e M = 0)

include h0 h1 in
theorem dE_lower (x : ℝ) : 43 / 200 ≤ 1 - e * Real.cos x := by
  nlinarith [Real.cos_le_one x]

include h0 h1 in
theorem newton_explicit (x : ℝ) : newtonElps M e x * (1 - e * Real.cos x) = M + e * (Real.sin x - x * Real.cos x) := by
  have := dE_lower h0 h1 x
  rw [newtonElps, kep_elps_eq, dE_eq]
  field_simp
  ring

include h0 h1 hroot in
theorem newton_error (x : ℝ) :
    (newtonElps M e x - a) * (1 - e * Real.cos x) = e * (Real.sin x - Real.sin a - (x - a) * Real.cos x) := by
  have h := newton_explicit (M := M) h0 h1 x
  rw [kep_elps_eq] at hroot
  linear_combination h - hroot

include h0 h1 hroot in
theorem newton_sq (x : ℝ) : |newtonElps M e x - a| ≤ 11 / 6 * (x - a) ^ 2 := by
  have h := newton_error h0 h1 hroot x
  have hd := dE_lower h0 h1 x
  have ht := sin_taylor x (a - x)
  rw [add_sub_cancel] at ht
  have : |newtonElps M e x - a| * (43 / 200) ≤ 157 / 400 * (x - a) ^ 2 := by
    calc |newtonElps M e x - a| * (43 / 200) ≤ |newtonElps M e x - a| * (1 - e * Real.cos x) :=
          mul_le_mul_of_nonneg_left hd (abs_nonneg _)
      _ = |(newtonElps M e x - a) * (1 - e * Real.cos x)| := by
          rw [abs_mul, abs_of_pos (by linarith : 0 < 1 - e * Real.cos x)]
      _ = e * |Real.sin a - Real.sin x - (a - x) * Real.cos x| := by
          rw [h, abs_mul, abs_of_nonneg h0, ← abs_neg]; congr 2; ring
      _ ≤ 157 / 200 * ((a - x) ^ 2 / 2) := mul_le_mul h1 ht (abs_nonneg _) (by norm_num)
      _ = 157 / 400 * (x - a) ^ 2 := by ring
  nlinarith [sq_nonneg (x - a)]

/-- After `j + 7` steps from `x` the convergence is doubly exponential. -/
def Settles (e M a : ℝ) (j : ℕ) (x : ℝ) : Prop := ∀ m, |(newtonElps M e)^[j + 7 + m] x - a| ≤ (1 / 2) ^ 2 ^ m

theorem Settles.succ {j : ℕ} {x : ℝ} (h : Settles e M a j (newtonElps M e x)) : Settles e M a (j + 1) x := by
  intro m
  have := h m
  rwa [← Function.iterate_succ_apply, show (j + 7 + m).succ = j + 1 + 7 + m by omega] at this

theorem Settles.mono {j k : ℕ} {x : ℝ} (h : Settles e M a j x) (hjk : j ≤ k) : Settles e M a k x := by
  obtain ⟨d, rfl⟩ := Nat.exists_eq_add_of_le hjk
  intro m
  have := h (d + m)
  rw [show j + 7 + (d + m) = j + d + 7 + m by omega] at this
  refine this.trans (pow_le_pow_of_le_one (by norm_num) (by norm_num) ?_)
  exact Nat.pow_le_pow_right (by norm_num) (by omega)

include h0 h1 hroot in
/-- Within 0.42 of the root. -/
theorem settles_near {x : ℝ} (h : |x - a| ≤ 21 / 50) : Settles e M a 0 x := by
  have key : ∀ m, |(newtonElps M e)^[m] x - a| ≤ 6 / 11 * (4 / 5) ^ 2 ^ m := by
    intro m
    induction m with
    | zero => simp only [Function.iterate_zero, id_eq]; norm_num; linarith
    | succ m ih =>
      rw [Function.iterate_succ_apply']
      refine (newton_sq h0 h1 hroot _).trans ?_
      rw [← sq_abs, pow_succ 2 m, pow_mul]
      have := pow_le_pow_left₀ (abs_nonneg _) ih 2
      nlinarith
  intro m
  refine (key _).trans ?_
  have h2 : ((4 : ℝ) / 5) ^ 2 ^ (0 + 7 + m) ≤ (1 / 2) ^ 2 ^ m := by
    rw [zero_add, pow_add, pow_mul]
    exact pow_le_pow_left₀ (by positivity) (by norm_num) _
  have h3 : (0 : ℝ) ≤ (1 / 2) ^ 2 ^ m := by positivity
  linarith

variable (ha0 : 0 ≤ a) (hap : a ≤ Real.pi)

include h0 h1 hroot ha0 in
/-- Between the root and `π`. -/
theorem settles_right {x : ℝ} (hax : a ≤ x) (hx : x ≤ Real.pi) : Settles e M a 0 x := by
  have h1' : e ≤ 49 / 50 := by linarith
  set u : ℕ → ℝ := fun k => (newtonElps M e)^[k] x with hu
  have hstep : ∀ k, u (k + 1) = newtonElps M e (u k) := fun k => by
    simp only [hu, Function.iterate_succ_apply']
  have hin : ∀ k, a ≤ u k ∧ u k ≤ Real.pi := by
    intro k
    induction k with
    | zero => exact ⟨hax, hx⟩
    | succ k ih =>
      rw [hstep]
      have := elps_descent h0 h1' hroot ha0 ih.1 ih.2
      exact ⟨this.1, this.2.1.trans ih.2⟩
  intro m
  have hd := decay (δ := fun k => u k - a) (ρ := 2 / 3) (c := 5 / 2) (D := 3.15) (n := 7) (by norm_num) (by norm_num)
    (fun k => sub_nonneg.2 (hin k).1) (by have := Real.pi_lt_d2; linarith [(hin 0).2])
    (fun k => by rw [hstep]; exact (elps_descent h0 h1' hroot ha0 (hin k).1 (hin k).2).2.2.1)
    (fun k => by rw [hstep]; exact (elps_descent h0 h1' hroot ha0 (hin k).1 (hin k).2).2.2.2)
    (by norm_num) m
  rw [zero_add]
  show |u (7 + m) - a| ≤ _
  rw [abs_of_nonneg (sub_nonneg.2 (hin _).1)]
  exact hd.trans (div_le_self (by positivity) (by norm_num))

include h0 h1 hroot ha0 hap in
/-- Beyond `π`, as far as the start can be. -/
theorem settles_beyond {x : ℝ} (hx : Real.pi ≤ x) (hxM : x ≤ M + e) : Settles e M a 1 x := by
  have hp := Real.pi_gt_d2
  rw [kep_elps_eq] at hroot
  have hsa : 0 ≤ Real.sin a := Real.sin_nonneg_of_nonneg_of_le_pi ha0 hap
  have hxa : x - a ≤ 157 / 200 := by nlinarith
  have hxa' : 0 ≤ x - a := by linarith
  apply Settles.succ
  refine settles_near h0 h1 (by rw [kep_elps_eq]; exact hroot) ?_
  have hc : Real.cos x ≤ 0 := Real.cos_nonpos_of_pi_div_two_le_of_le (by linarith) (by linarith)
  have h := newton_error h0 h1 (by rw [kep_elps_eq]; exact hroot) (M := M) (a := a) x
  have ht := sin_taylor x (a - x)
  rw [add_sub_cancel] at ht
  have : |newtonElps M e x - a| * 1 ≤ 157 / 400 * (x - a) ^ 2 := by
    calc |newtonElps M e x - a| * 1 ≤ |newtonElps M e x - a| * (1 - e * Real.cos x) :=
          mul_le_mul_of_nonneg_left (by nlinarith) (abs_nonneg _)
      _ = |(newtonElps M e x - a) * (1 - e * Real.cos x)| := by
          rw [abs_mul, abs_of_pos (by nlinarith : 0 < 1 - e * Real.cos x)]
      _ = e * |Real.sin a - Real.sin x - (a - x) * Real.cos x| := by
          rw [h, abs_mul, abs_of_nonneg h0, ← abs_neg]; congr 2; ring
      _ ≤ 157 / 200 * ((a - x) ^ 2 / 2) := mul_le_mul h1 ht (abs_nonneg _) (by norm_num)
      _ = 157 / 400 * (x - a) ^ 2 := by ring
  nlinarith

/-- The bound behind "one step from the left of the root lands at most 1.3 beyond `π`". -/
theorem overshoot_poly {x : ℝ} (hx0 : 0 ≤ x) (hxp : x ≤ Real.pi) :
    157 * (1 + Real.sin x) ≤ (Real.pi + 13 / 10 - x) * (200 - 157 * Real.cos x) := by
  have hp := Real.pi_gt_d2
  have hp' := Real.pi_lt_d2
  rcases le_total (Real.pi / 2) x with h | h
  · have hc : Real.cos x ≤ 0 := Real.cos_nonpos_of_pi_div_two_le_of_le h (by linarith)
    have hs : Real.sin x ≤ Real.pi - x := by rw [← Real.sin_pi_sub]; exact Real.sin_le (by linarith)
    nlinarith
  · have hc := cos_le_quartic hx0 (by linarith)
    have hs := Real.sin_le hx0
    have hx1 : x ≤ 1.575 := by linarith
    have hq : 0 ≤ 4.44 - x := by linarith
    have hx2 : 0 ≤ x ^ 2 := sq_nonneg x
    have use : ∀ q : ℝ, 0 ≤ 43 + q * x ^ 2 → q * x ^ 2 ≤ 157 * (x ^ 2 / 2 - x ^ 4 / 24) →
        157 * (1 + x) ≤ (4.44 - x) * (43 + q * x ^ 2) →
        157 * (1 + Real.sin x) ≤ (Real.pi + 13 / 10 - x) * (200 - 157 * Real.cos x) := by
      intro q hq0 hq1 hq2
      have h4 : (4.44 - x) * (43 + q * x ^ 2) ≤ (Real.pi + 13 / 10 - x) * (200 - 157 * Real.cos x) :=
        mul_le_mul (by linarith) (by linarith) hq0 (by linarith)
      linarith
    rcases le_total x (1 / 2) with h2 | h2
    · refine use 76.86 (by linarith) ?_ ?_
      · have : x ^ 2 ≤ 1 / 4 := by nlinarith
        nlinarith
      · have : x ^ 3 ≤ x ^ 2 / 2 := by nlinarith
        nlinarith [sq_nonneg (x - 1 / 3)]
    rcases le_total x 1 with h3 | h3
    · refine use 71.9 (by linarith) ?_ ?_
      · have : x ^ 2 ≤ 1 := by nlinarith
        nlinarith
      · nlinarith [mul_nonneg (sub_nonneg.2 h2) (sub_nonneg.2 h3), mul_nonneg (mul_nonneg (sub_nonneg.2 h2) (sub_nonneg.2 h3)) hx0]
    · refine use 62.2 (by linarith) ?_ ?_
      · have : x ^ 2 ≤ 2.481 := by nlinarith
        nlinarith
      · nlinarith [mul_nonneg (sub_nonneg.2 h3) (sub_nonneg.2 hx1), mul_nonneg (mul_nonneg (sub_nonneg.2 h3) (sub_nonneg.2 hx1)) hx0]

include h0 h1 in
/-- A step from the left of the root lands at most 1.3 beyond `π`. -/
theorem overshoot_le {x : ℝ} (hx0 : 0 ≤ x) (hxp : x ≤ Real.pi) (hxM : M - e ≤ x) :
    newtonElps M e x ≤ Real.pi + 13 / 10 := by
  have hd := dE_lower h0 h1 x
  have hex := newton_explicit (M := M) h0 h1 x
  have hpoly := overshoot_poly hx0 hxp
  have hB : e * (1 + Real.sin x + (Real.pi + 13 / 10 - x) * Real.cos x) ≤ Real.pi + 13 / 10 - x := by
    rcases le_total (1 + Real.sin x + (Real.pi + 13 / 10 - x) * Real.cos x) 0 with hb | hb
    · have : e * (1 + Real.sin x + (Real.pi + 13 / 10 - x) * Real.cos x) ≤ 0 := mul_nonpos_of_nonneg_of_nonpos h0 hb
      linarith
    · have := mul_le_mul_of_nonneg_right h1 hb
      linarith
  have : newtonElps M e x * (1 - e * Real.cos x) ≤ (Real.pi + 13 / 10) * (1 - e * Real.cos x) := by
    rw [hex]; linarith
  exact le_of_mul_le_mul_right this (by linarith)

include h0 h1 in
/-- A step from the left that passes `π` needs a large mean anomaly. -/
theorem overshoot_mean {x : ℝ} (hx0 : 0 ≤ x) (hxp : x ≤ Real.pi) (hgt : Real.pi ≤ newtonElps M e x) :
    Real.pi * (1 - e) ≤ M := by
  have hd := dE_lower h0 h1 x
  have hex := newton_explicit (M := M) h0 h1 x
  have h2 := mul_le_mul_of_nonneg_right hgt (show 0 ≤ 1 - e * Real.cos x by linarith)
  have hs := Real.sin_le hx0
  have hc := mul_le_mul_of_nonneg_left (Real.cos_le_one x) (sub_nonneg.2 hxp)
  have := mul_le_mul_of_nonneg_left (show Real.sin x + (Real.pi - x) * Real.cos x ≤ Real.pi by linarith) h0
  nlinarith

include h0 h1 hroot ha0 in
/-- The root is then large, too. -/
theorem root_large (hM : Real.pi * (1 - e) ≤ M) : 11 / 10 ≤ a := by
  have hp := Real.pi_gt_d2
  have hp' := Real.pi_lt_d2
  by_contra hlt
  rw [not_le] at hlt
  have hs := Real.mul_le_sin ha0 (by linarith)
  have hs' : 0.63 * a ≤ Real.sin a := by
    refine le_trans (mul_le_mul_of_nonneg_right ?_ ha0) hs
    rw [le_div_iff₀ Real.pi_pos]; linarith
  rw [kep_elps_eq] at hroot
  have h3 := mul_le_mul_of_nonneg_left hs' h0
  have h4 : a * (1 - 0.63 * e) ≤ 11 / 10 * (1 - 0.63 * e) := mul_le_mul_of_nonneg_right hlt.le (by linarith)
  have h5 : 3.14 * (1 - e) ≤ Real.pi * (1 - e) := mul_le_mul_of_nonneg_right (by linarith) (by linarith)
  nlinarith

include h0 h1 hroot ha0 hap in
/-- A step from `[π, π + 1.3]` ends below `π` and falls short of the root by at most 1.026. -/
theorem from_beyond {x : ℝ} (hx : Real.pi ≤ x) (hx1 : x ≤ Real.pi + 13 / 10) :
    newtonElps M e x ≤ Real.pi ∧ a - newtonElps M e x ≤ 1.026 := by
  have hp := Real.pi_gt_d2
  obtain ⟨u, rfl⟩ : ∃ u, x = u + Real.pi := ⟨x - Real.pi, by ring⟩
  obtain ⟨δ, rfl⟩ : ∃ δ, a = Real.pi - δ := ⟨Real.pi - a, by ring⟩
  have hu0 : 0 ≤ u := by linarith
  have hu1 : u ≤ 13 / 10 := by linarith
  have hcu : 31 / 200 ≤ Real.cos u := by
    have := Real.one_sub_sq_div_two_le_cos (x := u)
    have : u ^ 2 ≤ (13 / 10) ^ 2 := pow_le_pow_left₀ hu0 hu1 2
    linarith
  obtain ⟨hk1, hk2⟩ := sin_sub_mul_cos hu0 (by linarith)
  have hk3 : Real.sin u - u * Real.cos u ≤ 2197 / 3000 := by
    have : u ^ 3 ≤ (13 / 10) ^ 3 := pow_le_pow_left₀ hu0 hu1 3
    linarith
  have herr := newton_error h0 h1 hroot (u + Real.pi)
  have hex := newton_explicit (M := M) h0 h1 (u + Real.pi)
  rw [Real.cos_add_pi, Real.sin_add_pi, Real.sin_pi_sub] at herr
  rw [Real.cos_add_pi, Real.sin_add_pi] at hex
  generalize newtonElps M e (u + Real.pi) = y at herr hex ⊢
  have hec : 0 ≤ e * Real.cos u := mul_nonneg h0 (by linarith)
  have htan := sin_le_tangent hu0 (by linarith) (d := δ) (by linarith) (by linarith)
  have hMp : M ≤ Real.pi := by
    rw [kep_elps_eq, Real.sin_pi_sub] at hroot
    have hs0 : 0 ≤ Real.sin δ := Real.sin_nonneg_of_nonneg_of_le_pi (by linarith) (by linarith)
    have := mul_nonneg h0 hs0
    linarith
  constructor
  · have h3 := mul_nonneg h0 hk1
    have : y * (1 + e * Real.cos u) ≤ Real.pi * (1 + e * Real.cos u) := by linarith
    exact le_of_mul_le_mul_right this (by linarith)
  · have h3 : (Real.pi - δ - y) * (1 + e * Real.cos u)
        = e * (Real.sin u + Real.sin δ - (u + δ) * Real.cos u) := by linear_combination -herr
    have h4 : e * (Real.sin u + Real.sin δ - (u + δ) * Real.cos u) ≤ e * (2197 / 1500) :=
      mul_le_mul_of_nonneg_left (by linarith) h0
    rcases le_total (Real.pi - δ - y) 0 with hn | hn
    · linarith
    · have h5 : (Real.pi - δ - y) * (1 + e * (31 / 200)) ≤ (Real.pi - δ - y) * (1 + e * Real.cos u) :=
        mul_le_mul_of_nonneg_left (by nlinarith) hn
      have h6 : (Real.pi - δ - y) * (1 + e * (31 / 200)) ≤ e * (2197 / 1500) := by linarith
      generalize Real.pi - δ - y = q at h6 hn
      by_contra hq
      rw [not_le] at hq
      have h7 : 1.026 * (1 + e * (31 / 200)) ≤ q * (1 + e * (31 / 200)) :=
        mul_le_mul_of_nonneg_right hq.le (by linarith)
      norm_num at h7
      linarith

/-- The bound behind "the next step does not pass `π` again". -/
theorem return_poly {y : ℝ} (hy0 : 0 ≤ y) (hy : y ≤ Real.pi / 2) :
    0.4132 ≤ (2.114 - y) * (1 - 157 / 200 * Real.cos y) := by
  have hp' := Real.pi_lt_d2
  have hc := cos_le_quartic hy0 (by linarith)
  have hy1 : y ≤ 1.575 := by linarith
  have hy2 : 0 ≤ y ^ 2 := sq_nonneg y
  have use : ∀ q : ℝ, q * y ^ 2 ≤ 157 / 200 * (y ^ 2 / 2 - y ^ 4 / 24) → 0.4132 ≤ (2.114 - y) * (0.215 + q * y ^ 2) →
      0.4132 ≤ (2.114 - y) * (1 - 157 / 200 * Real.cos y) := by
    intro q hq1 hq2
    refine hq2.trans (mul_le_mul_of_nonneg_left (by linarith) (by linarith))
  rcases le_total y 1 with h3 | h3
  · refine use 0.3597 ?_ ?_
    · have : y ^ 2 ≤ 1 := by nlinarith
      nlinarith
    · have : y ^ 3 ≤ y ^ 2 := by nlinarith
      nlinarith [sq_nonneg (y - 1 / 4)]
  · refine use 0.311 ?_ ?_
    · have : y ^ 2 ≤ 2.481 := by nlinarith
      nlinarith
    · nlinarith [mul_nonneg (sub_nonneg.2 h3) (sub_nonneg.2 hy1), mul_nonneg (mul_nonneg (sub_nonneg.2 h3) (sub_nonneg.2 hy1)) hy0]

include h0 h1 hroot ha0 hap in
/-- Beyond `π`, after a step. -/
theorem settles_over {x : ℝ} (hx : Real.pi ≤ x) (hx1 : x ≤ Real.pi + 13 / 10) (hM : Real.pi * (1 - e) ≤ M) :
    Settles e M a 2 x := by
  have hp := Real.pi_gt_d2
  have hlarge := root_large h0 h1 hroot ha0 hM
  obtain ⟨hyp, hshort⟩ := from_beyond h0 h1 hroot ha0 hap hx hx1
  rcases le_total a (newtonElps M e x) with h2 | h2
  · exact ((settles_right h0 h1 hroot ha0 h2 hyp).succ).mono (by norm_num)
  generalize hy : newtonElps M e x = y at hyp hshort h2
  have hy0 : 0 ≤ y := by linarith
  have hd := dE_lower h0 h1 y
  have hpos : 0 < dE y e := by rw [dE_eq]; linarith
  have hge : a ≤ newtonElps M e y :=
    newton_ge_root (fun s => hasDerivAt_elps s e M) hroot hpos
      (fun s hs => by have : s = y := le_antisymm hs.2 (h2.trans hs.1); rw [this])
      (fun s hs => dE_mono h0 hy0 hs.1 (hs.2.trans hap))
  have h := newton_error h0 h1 hroot y
  have ht := sin_taylor y (a - y)
  rw [add_sub_cancel] at ht
  have hq : (a - y) ^ 2 ≤ 1.026 ^ 2 := pow_le_pow_left₀ (by linarith) hshort 2
  have hres : (newtonElps M e y - a) * (1 - e * Real.cos y) ≤ 0.4132 := by
    rw [h]
    have h3 : Real.sin y - Real.sin a - (y - a) * Real.cos y ≤ (a - y) ^ 2 / 2 := by
      have := (abs_le.1 ht).1
      linarith
    have h4 := mul_le_mul_of_nonneg_left h3 h0
    have h5 : e * ((a - y) ^ 2 / 2) ≤ 157 / 200 * ((a - y) ^ 2 / 2) := mul_le_mul_of_nonneg_right h1 (by positivity)
    norm_num at hq ⊢
    linarith
  have hgoal : Settles e M a 1 y := by
    rcases le_total (Real.pi / 2) y with h3 | h3
    · have hc : Real.cos y ≤ 0 := Real.cos_nonpos_of_pi_div_two_le_of_le h3 (by linarith)
      refine (settles_near h0 h1 hroot ?_).succ
      rw [abs_of_nonneg (by linarith)]
      have : (newtonElps M e y - a) * 1 ≤ (newtonElps M e y - a) * (1 - e * Real.cos y) :=
        mul_le_mul_of_nonneg_left (by nlinarith) (by linarith)
      norm_num at hres ⊢
      linarith
    · refine (settles_right h0 h1 hroot ha0 hge ?_).succ
      have hret := return_poly hy0 h3
      have hc : 0 ≤ Real.cos y := Real.cos_nonneg_of_mem_Icc ⟨by linarith, h3⟩
      have h5 : (2.114 - y) * (1 - 157 / 200 * Real.cos y) ≤ (2.114 - y) * (1 - e * Real.cos y) :=
        mul_le_mul_of_nonneg_left (by nlinarith) (by linarith [Real.pi_lt_d2])
      have h6 : newtonElps M e y - a ≤ 2.114 - y :=
        le_of_mul_le_mul_right (by linarith : _ ≤ (2.114 - y) * (1 - e * Real.cos y)) (by linarith)
      norm_num at h6 hshort
      linarith
  rw [← hy] at hgoal
  exact hgoal.succ

include h0 h1 hroot ha0 hap in
/-- Left of the root. -/
theorem settles_left {x : ℝ} (hx0 : 0 ≤ x) (hxa : x ≤ a) (hxM : M - e ≤ x) : Settles e M a 3 x := by
  have hd := dE_lower h0 h1 x
  have hpos : 0 < dE x e := by rw [dE_eq]; linarith
  have hge : a ≤ newtonElps M e x :=
    newton_ge_root (fun s => hasDerivAt_elps s e M) hroot hpos
      (fun s hs => by have : s = x := le_antisymm hs.2 (hxa.trans hs.1); rw [this])
      (fun s hs => dE_mono h0 hx0 hs.1 (hs.2.trans hap))
  have hu1 := overshoot_le h0 h1 hx0 (hxa.trans hap) hxM
  rcases le_total (newtonElps M e x) Real.pi with hle | hgt
  · exact ((settles_right h0 h1 hroot ha0 hge hle).succ).mono (by norm_num)
  · exact (settles_over h0 h1 hroot ha0 hap hgt hu1 (overshoot_mean h0 h1 hx0 (hxa.trans hap) hgt)).succ

include h0 h1 hroot ha0 hap in
/-- Left of 0. -/
theorem settles_negative (hM0 : 0 ≤ M) {x : ℝ} (hx0 : x ≤ 0) (hxM : M - e ≤ x) : Settles e M a 6 x := by
  have hp := Real.pi_gt_d2
  -- one step
  have step : ∀ y, 0 ≤ y → M - e ≤ -y → ∀ n, (0 ≤ newtonElps M e (-y) → Settles e M a 4 (-y)) ∧
      (newtonElps M e (-y) = -n → 0 ≤ n → n * (43 / 200) + M ≤ 0.2617 * y ^ 3) := by
    intro y hy hyM n
    have hex := newton_explicit (M := M) h0 h1 (-y)
    rw [Real.cos_neg, Real.sin_neg] at hex
    have hd := dE_lower h0 h1 y
    have hy34 : y ≤ 157 / 200 := by linarith
    obtain ⟨hk1, hk2⟩ := sin_sub_mul_cos hy (by linarith)
    constructor
    · intro hn
      have hle : newtonElps M e (-y) * (1 - e) ≤ M := by
        calc newtonElps M e (-y) * (1 - e) ≤ newtonElps M e (-y) * (1 - e * Real.cos y) :=
              mul_le_mul_of_nonneg_left (by nlinarith [Real.cos_le_one y]) hn
          _ = M - e * (Real.sin y - y * Real.cos y) := by rw [hex]; ring
          _ ≤ M := by nlinarith
      rcases le_total Real.pi (newtonElps M e (-y)) with hgt | hle'
      · refine ((settles_over h0 h1 hroot ha0 hap hgt ?_ ?_).succ).mono (by norm_num)
        · nlinarith
        · exact (mul_le_mul_of_nonneg_right hgt (by linarith)).trans hle
      rcases le_total a (newtonElps M e (-y)) with h | h
      · exact (settles_right h0 h1 hroot ha0 h hle').succ.mono (by norm_num)
      · exact (settles_left h0 h1 hroot ha0 hap hn h (by linarith)).succ
    · intro hn hn0
      rw [hn] at hex
      have h3 : n * (1 - e * Real.cos y) = e * (Real.sin y - y * Real.cos y) - M := by linear_combination -hex
      have h4 : e * (Real.sin y - y * Real.cos y) ≤ 0.2617 * y ^ 3 := by
        have := mul_le_mul h1 hk2 hk1 (by norm_num)
        have := pow_nonneg hy 3
        linarith
      have h5 : 0 ≤ n * (1 - e * Real.cos y) := mul_nonneg hn0 (by linarith)
      have h6 : n * (43 / 200) ≤ n * (1 - e * Real.cos y) := mul_le_mul_of_nonneg_left hd hn0
      linarith
  have hs := step (-x) (by linarith) (by linarith) (-newtonElps M e x)
  rw [neg_neg, neg_neg] at hs
  rcases le_total 0 (newtonElps M e x) with h | h
  · exact (hs.1 h).mono (by norm_num)
  have hy1 := hs.2 rfl (by linarith)
  have hy3 : (-x) ^ 3 ≤ (157 / 200) ^ 3 := pow_le_pow_left₀ (by linarith) (by linarith) 3
  have hy3' : (-x) ^ 3 ≤ 0.617 * -x := by
    have : (-x) ^ 2 ≤ (157 / 200) ^ 2 := pow_le_pow_left₀ (by linarith) (by linarith) 2
    have h2 := mul_le_mul_of_nonneg_right this (show 0 ≤ -x by linarith)
    norm_num at h2 ⊢
    nlinarith
  have hn1 : -newtonElps M e x ≤ 0.59 := by norm_num at hy1 hy3 ⊢; linarith
  have hs2 := step (-newtonElps M e x) (by linarith) (by norm_num at hy1 hy3'; linarith) (-newtonElps M e (newtonElps M e x))
  rw [neg_neg, neg_neg] at hs2
  rcases le_total 0 (newtonElps M e (newtonElps M e x)) with h' | h'
  · exact ((hs2.1 h').succ).mono (by norm_num)
  have hw1 := hs2.2 rfl (by linarith)
  refine ((settles_near h0 h1 hroot ?_).succ.succ).mono (by norm_num)
  have hz3 : (-newtonElps M e x) ^ 3 ≤ 0.59 ^ 3 := pow_le_pow_left₀ (by linarith) hn1 3
  have ha4 : a * (43 / 200) ≤ M := by
    rw [kep_elps_eq] at hroot
    have := Real.sin_le ha0
    nlinarith
  generalize newtonElps M e (newtonElps M e x) = y2 at *
  generalize (-newtonElps M e x) ^ 3 = z3 at *
  norm_num at hz3 hw1
  rw [abs_le]
  constructor <;> linarith

include h0 h1 in
/-- Every start `M + e s` with `|s| ≤ 1`, for `0 ≤ M ≤ π`. -/
theorem settles_all (hM0 : 0 ≤ M) (hMp : M ≤ Real.pi) {s : ℝ} (hs : |s| ≤ 1) :
    ∃ a, kepler_equ_elps a e M = 0 ∧ Settles e M a 6 (M + e * s) := by
  obtain ⟨a, hroot, ha0, hap⟩ : ∃ a, kepler_equ_elps a e M = 0 ∧ 0 ≤ a ∧ a ≤ Real.pi := by
    have hc : ContinuousOn (fun E => kepler_equ_elps E e M) (Icc 0 Real.pi) :=
      (continuous_iff_continuousAt.2 fun s => (hasDerivAt_elps s e M).continuousAt).continuousOn
    have := intermediate_value_Icc Real.pi_pos.le hc
    obtain ⟨Es, hEs, hz⟩ := this (show (0 : ℝ) ∈ Icc (kepler_equ_elps 0 e M) (kepler_equ_elps Real.pi e M) by
      rw [kep_elps_eq, kep_elps_eq, Real.sin_zero, Real.sin_pi]
      constructor <;> linarith)
    exact ⟨Es, hz, hEs.1, hEs.2⟩
  refine ⟨a, hroot, ?_⟩
  obtain ⟨hs1, hs2⟩ := abs_le.1 hs
  have hlo : M - e ≤ M + e * s := by nlinarith
  have hhi : M + e * s ≤ M + e := by nlinarith
  rcases le_total (M + e * s) 0 with h | h
  · exact settles_negative h0 h1 hroot ha0 hap hM0 h hlo
  rcases le_total (M + e * s) a with h2 | h2
  · exact (settles_left h0 h1 hroot ha0 hap h h2 hlo).mono (by norm_num)
  rcases le_total (M + e * s) Real.pi with h3 | h3
  · exact (settles_right h0 h1 hroot ha0 h2 h3).mono (by norm_num)
  · exact (settles_beyond h0 h1 hroot ha0 hap h3 hhi).mono (by norm_num)

end

/-- Residuals of the iterates started at `M + e s`, for every `M`. -/
theorem phase_residual {e : ℝ} (h0 : 0 ≤ e) (h1 : e ≤ 157 / 200) (M : ℝ) {s : ℝ} (hs : |s| ≤ 1) (m : ℕ) :
    |kepler_equ_elps ((newtonElps M e)^[6 + 7 + m] (M + e * s)) e M| ≤ 2 * (1 / 2) ^ 2 ^ m := by
  have hlip : ∀ M x Es : ℝ, kepler_equ_elps Es e M = 0 → |kepler_equ_elps x e M| ≤ 2 * |x - Es| := by
    intro M x Es hE
    have hs := Real.abs_sin_sub_sin_le x Es
    have h2 : kepler_equ_elps x e M = (x - Es) - e * (Real.sin x - Real.sin Es) := by
      have := hE
      rw [kep_elps_eq] at this ⊢
      linarith
    rw [h2]
    refine (abs_sub _ _).trans ?_
    rw [abs_mul, abs_of_nonneg h0]
    nlinarith [abs_nonneg (x - Es), abs_nonneg (Real.sin x - Real.sin Es)]
  have key : ∀ M s : ℝ, |s| ≤ 1 → 0 ≤ M → M ≤ Real.pi →
      |kepler_equ_elps ((newtonElps M e)^[6 + 7 + m] (M + e * s)) e M| ≤ 2 * (1 / 2) ^ 2 ^ m := by
    intro M s hs hM0 hMp
    obtain ⟨Es, hE, hj⟩ := settles_all h0 h1 hM0 hMp hs
    exact (hlip M _ Es hE).trans (mul_le_mul_of_nonneg_left (hj m) (by norm_num))
  have hneg : ∀ M x : ℝ, ∀ k : ℕ, (newtonElps (-M) e)^[k] (-x) = -(newtonElps M e)^[k] x := by
    intro M x k
    induction k with
    | zero => rfl
    | succ k ih =>
      rw [Function.iterate_succ_apply', Function.iterate_succ_apply', ih, newtonElps, newtonElps]
      have : kepler_equ_elps (-(newtonElps M e)^[k] x) e (-M) = -kepler_equ_elps ((newtonElps M e)^[k] x) e M := by
        rw [kep_elps_eq, kep_elps_eq, Real.sin_neg]; ring
      rw [this, dE_eq, dE_eq, Real.cos_neg]
      ring
  have hper : ∀ (M x : ℝ) (n : ℤ) (k : ℕ),
      (newtonElps (M + 2 * Real.pi * n) e)^[k] (x + 2 * Real.pi * n) = (newtonElps M e)^[k] x + 2 * Real.pi * n := by
    intro M x n k
    induction k with
    | zero => rfl
    | succ k ih =>
      rw [Function.iterate_succ_apply', Function.iterate_succ_apply', ih, newtonElps, newtonElps, kep_elps_eq,
        kep_elps_eq, dE_eq, dE_eq, mul_comm (2 * Real.pi), Real.sin_add_int_mul_two_pi, Real.cos_add_int_mul_two_pi]
      ring
  have key2 : ∀ M s : ℝ, |s| ≤ 1 → |M| ≤ Real.pi →
      |kepler_equ_elps ((newtonElps M e)^[6 + 7 + m] (M + e * s)) e M| ≤ 2 * (1 / 2) ^ 2 ^ m := by
    intro M s hs hM
    rcases le_total 0 M with h | h
    · exact key M s hs h ((le_abs_self M).trans hM)
    · have := key (-M) (-s) (by rwa [abs_neg]) (by linarith) ((neg_le_abs M).trans hM)
      rw [show -M + e * -s = -(M + e * s) by ring, hneg] at this
      have h2 : ∀ x, kepler_equ_elps (-x) e (-M) = -kepler_equ_elps x e M := fun x => by
        rw [kep_elps_eq, kep_elps_eq, Real.sin_neg]; ring
      rwa [h2, abs_neg] at this
  obtain ⟨k, hk⟩ : ∃ k : ℤ, |M - 2 * Real.pi * k| ≤ Real.pi := by
    refine ⟨round (M / (2 * Real.pi)), ?_⟩
    have h := abs_sub_round (M / (2 * Real.pi))
    have hp := Real.pi_pos
    have he : M - 2 * Real.pi * round (M / (2 * Real.pi))
        = 2 * Real.pi * (M / (2 * Real.pi) - round (M / (2 * Real.pi))) := by field_simp
    rw [he, abs_mul, abs_of_pos (by linarith)]
    nlinarith
  have h2 := key2 _ s hs hk
  have h3 := hper (M - 2 * Real.pi * k) (M - 2 * Real.pi * k + e * s) k (6 + 7 + m)
  rw [sub_add_cancel, show M - 2 * Real.pi * k + e * s + 2 * Real.pi * k = M + e * s by ring] at h3
  rw [h3]
  have h4 : ∀ x, kepler_equ_elps (x + 2 * Real.pi * k) e M = kepler_equ_elps x e (M - 2 * Real.pi * k) := fun x => by
    rw [kep_elps_eq, kep_elps_eq, mul_comm (2 * Real.pi), Real.sin_add_int_mul_two_pi]; ring
  rwa [h4]

section
variable {r v : V3 ℝ} {mu : ℝ}

/-- C55, third range: on every ellipse with `e ≤ 0.785` the default call meets its tolerance from every phase and at
every time of flight (24 steps suffice). Missing from the full claim: larger eccentricities. -/
theorem C55_phase_default_partial (hmu : 0 < mu) (hh : angular_momentum r v ≠ ⟨0, 0, 0⟩)
    (ha : 0 < aOf r v mu) (he : eOf r v mu ≤ 157 / 200)
    (hsize : Real.sqrt (aOf r v mu) ^ 3 ≤ 10 ^ 300) (t : ℝ) (max_iter : ℕ := 50) (hn : 24 ≤ max_iter) :
    ∃ χ, solve_kepler_uni t (1 / aOf r v mu) (V3.norm r) (sigma_fn r v mu) mu defaultTol max_iter = some χ ∧
      |kepler_equ_uni χ (1 / aOf r v mu) (V3.norm r) (sigma_fn r v mu) t mu| ≤ 1 / 1000000 := by
  have htol : (defaultTol : ℝ) = 1 / 1000000 := by norm_num [defaultTol]
  have hb : 0 < Real.sqrt (aOf r v mu) := Real.sqrt_pos.2 ha
  have he0 : 0 ≤ eOf r v mu := V3.norm_nonneg _
  obtain ⟨E0, -, -, hE0⟩ := C53_eccentric_exists hmu hh ha
  obtain ⟨k, hk, -, hs, -, hstop⟩ := C13_uni t (1 / aOf r v mu) (V3.norm r) (sigma_fn r v mu) mu defaultTol max_iter
  refine ⟨_, hs, ?_⟩
  rcases hk.lt_or_eq with h | h
  · have := hstop h
    simp only [lt_real, abs_real, decide_eq_false_iff_not, not_lt, htol] at this
    exact this
  · rw [C55_elliptic_newton hmu ha hE0, (C53_elliptic_equation hmu ha hE0 t _).1, ← meanAt]
    obtain ⟨n, rfl⟩ : ∃ n, k = 6 + 7 + n := ⟨k - 13, by omega⟩
    have hres := phase_residual he0 he (meanAt r v mu E0 t) (Real.abs_sin_le_one E0) n
    rw [abs_mul, abs_of_pos (by positivity)]
    have hsmall : 2 * (1 / 2 : ℝ) ^ 2 ^ n ≤ (1 / 10) ^ 306 := by
      have h8 : (1 / 2 : ℝ) ^ 4 ≤ 1 / 10 := by norm_num
      have h9 : (1 / 2 : ℝ) ^ 2 ^ n ≤ (1 / 2) ^ (4 * 306) * (1 / 2) := by
        rw [← pow_succ]
        refine pow_le_pow_of_le_one (by norm_num) (by norm_num) ?_
        calc 4 * 306 + 1 ≤ 2 ^ 11 := by norm_num
          _ ≤ 2 ^ n := Nat.pow_le_pow_right (by norm_num) (by omega)
      have h10 : (1 / 2 : ℝ) ^ (4 * 306) ≤ (1 / 10) ^ 306 := by
        rw [pow_mul]; exact pow_le_pow_left₀ (by positivity) h8 306
      generalize (1 / 2 : ℝ) ^ (4 * 306) = p at h9 h10
      linarith
    calc Real.sqrt (aOf r v mu) ^ 3 * |kepler_equ_elps _ _ _| ≤ 10 ^ 300 * (1 / 10) ^ 306 :=
          mul_le_mul hsize (hres.trans hsmall) (abs_nonneg _) (by positivity)
      _ = 1 / 1000000 := by
          rw [show (306 : ℕ) = 300 + 6 by norm_num, pow_add, ← mul_assoc, ← mul_pow]; norm_num

/-- C55, `kepler` from every phase of an ellipse with `e ≤ 0.785`. -/
theorem C55_kepler_phase_partial (hmu : 0 < mu) (hh : angular_momentum r v ≠ ⟨0, 0, 0⟩)
    (ha : 0 < aOf r v mu) (he : eOf r v mu ≤ 157 / 200)
    (hsize : Real.sqrt (aOf r v mu) ^ 3 ≤ 10 ^ 300)
    {ts : List ℝ} {rs vs : List (V3 ℝ)} (hk : kepler ts r v mu = some (rs, vs)) {i : ℕ} {r' v' : V3 ℝ}
    (hr' : rs[i]? = some r') (hv' : vs[i]? = some v') :
    ∃ t t', ts[i]? = some t ∧ |t' - t| ≤ 1 / 1000000 / Real.sqrt mu ∧ (r', v') = exactProp r v mu t' := by
  obtain ⟨t, χ, t', h1, h2, h3, h4, -⟩ := C23_exact_up_to_time hmu hh hk hr' hv'
  obtain ⟨χ', h5, h6⟩ := C55_phase_default_partial hmu hh ha he hsize t 50 (by norm_num)
  have h7 : solve_kepler_uni t (alphaOf r v mu) (V3.norm r) (sigma_fn r v mu) mu defaultTol 50 = some χ' := h5
  obtain rfl : χ' = χ := Option.some.inj (h7.symm.trans h2)
  refine ⟨t, t', h1, ?_, h4⟩
  rw [h3, add_sub_cancel_left, abs_div, abs_of_pos (Real.sqrt_pos.2 hmu)]
  exact div_le_div_of_nonneg_right h6 (Real.sqrt_nonneg _)

end

/-- A state on its way down an ellipse of eccentricity `0.78`: `r = (1,0,0)`, `v = (-0.78,1,0)`, `mu = 1`. -/
example : angular_momentum (⟨1, 0, 0⟩ : V3 ℝ) ⟨-39 / 50, 1, 0⟩ ≠ ⟨0, 0, 0⟩ ∧ 0 < aOf ⟨1, 0, 0⟩ ⟨-39 / 50, 1, 0⟩ 1 ∧
    eOf ⟨1, 0, 0⟩ ⟨-39 / 50, 1, 0⟩ 1 = 39 / 50 ∧ Real.sqrt (aOf ⟨1, 0, 0⟩ ⟨-39 / 50, 1, 0⟩ 1) ^ 3 ≤ 10 ^ 300 := by
  have h : angular_momentum (⟨1, 0, 0⟩ : V3 ℝ) ⟨-39 / 50, 1, 0⟩ ≠ ⟨0, 0, 0⟩ := by
    intro h
    have := congrArg V3.z h
    simp [angular_momentum, V3.cross] at this
  have hn : V3.norm (⟨1, 0, 0⟩ : V3 ℝ) = 1 := by rw [norm_unfold]; simp
  have hn' : V3.norm (⟨-39 / 50, 1, 0⟩ : V3 ℝ) ^ 2 = 4021 / 2500 := by
    rw [norm_unfold, Real.sq_sqrt (by positivity)]; norm_num
  have ha : aOf ⟨1, 0, 0⟩ ⟨-39 / 50, 1, 0⟩ 1 = 2500 / 979 := by
    simp only [aOf, semimajor_axis, hn, hn', Nat.cast_ofNat, Nat.cast_one]; norm_num
  have hs : sigma_fn (⟨1, 0, 0⟩ : V3 ℝ) ⟨-39 / 50, 1, 0⟩ 1 = -39 / 50 := by
    have := sigma_rv (r := ⟨1, 0, 0⟩) (v := ⟨-39 / 50, 1, 0⟩) (mu := 1) one_pos
    simp only [V3.dot, mul_zero, zero_mul, add_zero, Real.sqrt_one, one_mul] at this
    exact this.symm
  refine ⟨h, by rw [ha]; norm_num, ?_, ?_⟩
  · have h1 := pOf_inv (r := ⟨1, 0, 0⟩) (v := ⟨-39 / 50, 1, 0⟩) (mu := 1) one_pos h
    have h2 := pOf_alpha (r := ⟨1, 0, 0⟩) (v := ⟨-39 / 50, 1, 0⟩) (mu := 1) one_pos h
    have hα : alphaOf (⟨1, 0, 0⟩ : V3 ℝ) ⟨-39 / 50, 1, 0⟩ 1 = 979 / 2500 := by
      have : alphaOf (⟨1, 0, 0⟩ : V3 ℝ) ⟨-39 / 50, 1, 0⟩ 1 = 1 / aOf ⟨1, 0, 0⟩ ⟨-39 / 50, 1, 0⟩ 1 := rfl
      rw [this, ha]; norm_num
    rw [hα, hn, hs] at h1
    rw [hα, ← h1] at h2
    have he0 : 0 ≤ eOf (⟨1, 0, 0⟩ : V3 ℝ) ⟨-39 / 50, 1, 0⟩ 1 := V3.norm_nonneg _
    have : eOf (⟨1, 0, 0⟩ : V3 ℝ) ⟨-39 / 50, 1, 0⟩ 1 ^ 2 = (39 / 50) ^ 2 := by linarith
    exact (sq_eq_sq₀ he0 (by norm_num)).1 this
  · rw [ha]
    have h5 : Real.sqrt (2500 / 979) ≤ 10 := by
      rw [Real.sqrt_le_iff]; norm_num
    calc Real.sqrt (2500 / 979) ^ 3 ≤ 10 ^ 3 := pow_le_pow_left₀ (Real.sqrt_nonneg _) h5 3
      _ ≤ 10 ^ 300 := pow_le_pow_right₀ (by norm_num) (by norm_num)

end Adx
