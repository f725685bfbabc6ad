import Verif.Props.C58

/-! # C58: wider ranges on hyperbolas

Right of the root and at least `δ` away from it a Newton step moves back by nearly `1 - exp(-δ)`; the steps are counted
from the first iterate `x1`, for any eccentricity down to 1.0005, either direction of time, on the way in or out. -/

namespace Adx
open Set Spec

section
variable {N e a : ℝ} (he : 2001 / 2000 ≤ e) (hroot : kepler_equ_hypb a e N = 0) (ha : 0 ≤ a)
include he hroot ha

theorem hypb_gap {x δ : ℝ} (hδ : 0 ≤ δ) (hx : a ≤ x - δ) :
    e * Real.sinh x * (1 - Real.exp (-δ)) - δ ≤ kepler_equ_hypb x e N := by
  have h1 := (hypb_resid_nonneg (one_lt_of he) hroot ha hx).1
  have h2 : Real.sinh (x - δ) ≤ Real.exp (-δ) * Real.sinh x := by
    have hm : Real.exp (-δ) = Real.cosh δ - Real.sinh δ := by rw [Real.cosh_sub_sinh]
    rw [Real.sinh_sub, hm]
    have h5 : Real.sinh x ≤ Real.cosh x := (Real.sinh_lt_cosh _).le
    have h6 : 0 ≤ Real.sinh δ := Real.sinh_nonneg_iff.2 hδ
    nlinarith
  have h3 := mul_le_mul_of_nonneg_left h2 (by linarith : 0 ≤ e)
  rw [kep_hypb_eq] at h1 ⊢
  linarith

/-- A step from `x ≥ X`, at least `δ` right of the root: `E ≤ exp δ`, `C ≤ exp X`. -/
theorem hypb_gap_step {x δ d X E C : ℝ} (hδ : 0 ≤ δ) (hx : a + δ ≤ x) (hX : X ≤ x)
    (hE : E ≤ Real.exp δ) (hE0 : 1 ≤ E) (hC : C ≤ Real.exp X) (hC0 : 1 < C) (hd : 0 ≤ d) (hdE : d ≤ 1 - 1 / E)
    (h : δ - d + e / C ≤ e * (C / 2) * (1 - 1 / E - d)) : newtonHypb N e x ≤ x - d := by
  have hpos := dH_pos' (one_lt_of he) x
  have hmδ : Real.exp (-δ) ≤ 1 / E := by
    rw [Real.exp_neg, ← one_div]; exact one_div_le_one_div_of_le (by linarith) hE
  have hCx : C ≤ Real.exp x := hC.trans (Real.exp_le_exp.2 hX)
  have hmx : Real.exp (-x) ≤ 1 / C := by
    rw [Real.exp_neg, ← one_div]; exact one_div_le_one_div_of_le (by linarith) hCx
  have hc : C / 2 ≤ Real.cosh x := by rw [Real.cosh_eq]; linarith [Real.exp_pos (-x)]
  have hs : Real.cosh x - 1 / C ≤ Real.sinh x := by rw [Real.cosh_eq, Real.sinh_eq]; linarith
  have hE1 : 1 / E ≤ 1 := by rw [div_le_one (by linarith)]; exact hE0
  have hE2 : 0 < 1 / E := by positivity
  have hC1 : 0 < 1 / C := by positivity
  have hs0 : 0 ≤ Real.sinh x := Real.sinh_nonneg_iff.2 (by linarith)
  have h1 : e * (Real.cosh x - 1 / C) * (1 - 1 / E) ≤ e * Real.sinh x * (1 - Real.exp (-δ)) :=
    mul_le_mul (mul_le_mul_of_nonneg_left hs (by linarith)) (by linarith) (by linarith)
      (mul_nonneg (by linarith) hs0)
  have h2 : e * (C / 2) * (1 - 1 / E - d) ≤ e * Real.cosh x * (1 - 1 / E - d) :=
    mul_le_mul_of_nonneg_right (mul_le_mul_of_nonneg_left hc (by linarith)) (by linarith)
  have h3 : e / C = e * (1 / C) := by ring
  have h4 : e * (1 / C) * (1 - 1 / E) ≤ e * (1 / C) * 1 :=
    mul_le_mul_of_nonneg_left (by linarith) (by have : 0 ≤ e := by linarith
                                                positivity)
  have hg := hypb_gap he hroot ha hδ (by linarith : a ≤ x - δ)
  have : d ≤ kepler_equ_hypb x e N / dH x e := by
    rw [le_div_iff₀ hpos, dH_eq]
    nlinarith
  rw [newtonHypb_eq, newton]
  linarith

theorem hypb_gap_six {x : ℝ} (hx8 : 8 ≤ x) (hx : a + 6 ≤ x) : newtonHypb N e x ≤ x - 0.992 :=
  hypb_gap_step he hroot ha (δ := 6) (X := 8) (E := 400) (C := 2900) (by norm_num) hx hx8
    (exp_ge_of_pow (p := 6) (q := 1) (by norm_num) (by norm_num) (by norm_num)) (by norm_num)
    (exp_ge_of_pow (p := 8) (q := 1) (by norm_num) (by norm_num) (by norm_num)) (by norm_num) (by norm_num) (by norm_num)
    (by linarith)

theorem hypb_gap_four {x : ℝ} (hx6 : 6 ≤ x) (hx : a + 4 ≤ x) : newtonHypb N e x ≤ x - 0.96 :=
  hypb_gap_step he hroot ha (δ := 4) (X := 6) (E := 54) (C := 400) (by norm_num) hx hx6
    (exp_ge_of_pow (p := 4) (q := 1) (by norm_num) (by norm_num) (by norm_num)) (by norm_num)
    (exp_ge_of_pow (p := 6) (q := 1) (by norm_num) (by norm_num) (by norm_num)) (by norm_num) (by norm_num) (by norm_num)
    (by linarith)

theorem hypb_gap_two {x : ℝ} (hx4 : 4 ≤ x) (hx : a + 2 ≤ x) : newtonHypb N e x ≤ x - 0.8 :=
  hypb_gap_step he hroot ha (δ := 2) (X := 4) (E := 7.38) (C := 54) (by norm_num) hx hx4
    (exp_ge_of_pow (p := 2) (q := 1) (by norm_num) (by norm_num) (by norm_num)) (by norm_num)
    (exp_ge_of_pow (p := 4) (q := 1) (by norm_num) (by norm_num) (by norm_num)) (by norm_num) (by norm_num) (by norm_num)
    (by linarith)

theorem hypb_gap_log {x : ℝ} (hx3 : 2.9 ≤ x) (hx : a + Real.log 2 ≤ x) : newtonHypb N e x ≤ x - 0.4 :=
  hypb_gap_step he hroot ha (δ := Real.log 2) (X := 2.9) (E := 2) (C := 18) (Real.log_nonneg (by norm_num)) hx hx3
    (by rw [Real.exp_log (by norm_num)]) (by norm_num)
    (exp_ge_of_pow (p := 29) (q := 10) (by norm_num) (by norm_num) (by norm_num)) (by norm_num) (by norm_num) (by norm_num)
    (by have := Real.log_two_lt_d9; linarith)

omit ha in
/-- The quadratic rate, from a bound on `e sinh/(e cosh - 1)`. -/
theorem hypb_quad_of {c : ℝ} (hc0 : 0 ≤ c) (hc1 : e ^ 2 ≤ (2 * c) ^ 2 * (e ^ 2 - 1)) {x : ℝ} (hx : a ≤ x) :
    newtonHypb N e x - a ≤ c * (x - a) ^ 2 := by
  have hq := newton_quad (f := fun H => kepler_equ_hypb H e N) (f' := fun H => dH H e) (f'' := fun s => e * Real.sinh s)
    (C := 2 * c) (fun s => hasDerivAt_hypb s e N) (hasDerivAt_dH e) hx hroot (dH_pos' (one_lt_of he) x) (fun s hs => ?_)
  · rw [newtonHypb_eq]; linarith
  · have h1 : e * Real.sinh s ≤ e * Real.sinh x := mul_le_mul_of_nonneg_left (Real.sinh_le_sinh.2 hs.2) (by linarith)
    refine h1.trans ?_
    rw [dH_eq]
    set k := 2 * c with hk
    have hk0 : 0 ≤ k := by positivity
    have hcs := Real.cosh_sq x
    have hc1' := Real.one_le_cosh x
    have hk1 : 1 < k := by
      by_contra hlt
      push Not at hlt
      have h5 : k ^ 2 ≤ 1 := pow_le_one₀ hk0 hlt
      have h6 : 0 ≤ e ^ 2 - 1 := by nlinarith
      nlinarith
    have hsc := Real.sinh_lt_cosh x
    have hpos : 0 ≤ k * Real.cosh x - Real.sinh x := by nlinarith
    have h2 : k ^ 2 - 1 ≤ (k * Real.cosh x - Real.sinh x) ^ 2 := by
      nlinarith [sq_nonneg (Real.cosh x - k * Real.sinh x)]
    have h3 : k ^ 2 ≤ (e * (k * Real.cosh x - Real.sinh x)) ^ 2 := by
      rw [mul_pow]
      have h4 : e ^ 2 * (k ^ 2 - 1) ≤ e ^ 2 * (k * Real.cosh x - Real.sinh x) ^ 2 :=
        mul_le_mul_of_nonneg_left h2 (sq_nonneg _)
      nlinarith
    have := abs_le_of_sq_le_sq' h3 (mul_nonneg (by linarith) hpos)
    linarith [this.2]

end

/-- Residuals of the iterates from a start `x0 ≥ 0` towards a root on the same side, from a bound on the first
iterate: `K` steps of nearly one, ten shorter ones, `n` linear ones and `m` quadratic ones. -/
theorem hypb_from_first {e N x0 c B : ℝ} (he : 2001 / 2000 ≤ e) (hN : 0 ≤ N) (hx0 : 0 ≤ x0)
    (hc1 : 1 ≤ c) (hc2 : e ^ 2 ≤ (2 * c) ^ 2 * (e ^ 2 - 1)) (hB : newtonHypb N e x0 ≤ B) (hB29 : B ≤ 29) {K n : ℕ}
    (hK : B - K * 0.992 ≤ 8) (hn : (4 / 5) ^ n * 2.9 * c ≤ 1 / 2) (m : ℕ) :
    |kepler_equ_hypb ((newtonHypb N e)^[K + 10 + n + m + 1] x0) e N| ≤ e * (10 ^ 13 * (1 / 2) ^ 2 ^ m) := by
  obtain ⟨a, hroot, ha⟩ := hypb_root (one_lt_of he) hN
  set x : ℕ → ℝ := fun k => (newtonHypb N e)^[k + 1] x0 with hx
  have hstep : ∀ k, x (k + 1) = newtonHypb N e (x k) := fun k => by
    simp only [hx, Function.iterate_succ_apply']
  have hin : ∀ k, a ≤ x k := by
    intro k
    induction k with
    | zero => exact hypb_right (one_lt_of he) hroot ha hx0
    | succ k ih =>
      rw [hstep]
      exact hypb_right (one_lt_of he) hroot ha (ha.trans ih)
  have hdec : ∀ k, x (k + 1) ≤ x k := fun k => by
    rw [hstep]; exact hypb_decreases (one_lt_of he) hroot ha (hin k)
  have hanti : Antitone x := antitone_nat_of_succ_le hdec
  have hl := Real.log_two_lt_d9
  have hl' := Real.log_two_gt_d9
  have b0 : x (0 + K) ≤ max 8 (a + 6) := below_after (n := 0) (m := K) (g := newtonHypb N e) (d := 0.992) (B := B)
    hstep hdec (fun y hy => hypb_gap_six he hroot ha ((le_max_left _ _).trans hy) ((le_max_right _ _).trans hy))
    hB (hK.trans (le_max_left _ _)) (by norm_num)
  rw [zero_add] at b0
  have b1 : x (K + 3) ≤ max 6 (a + 4) := below_after (n := K) (m := 3) (g := newtonHypb N e) (d := 0.96)
    (B := max 8 (a + 6)) hstep hdec
    (fun y hy => hypb_gap_four he hroot ha ((le_max_left _ _).trans hy) ((le_max_right _ _).trans hy))
    b0 (by
      rw [sub_le_iff_le_add]
      have h1 := le_max_left (6 : ℝ) (a + 4)
      have h2 := le_max_right (6 : ℝ) (a + 4)
      refine max_le ?_ ?_ <;> push_cast <;> linarith) (by norm_num)
  have b2 : x (K + 3 + 3) ≤ max 4 (a + 2) := below_after (n := K + 3) (m := 3) (g := newtonHypb N e) (d := 0.8)
    (B := max 6 (a + 4)) hstep hdec
    (fun y hy => hypb_gap_two he hroot ha ((le_max_left _ _).trans hy) ((le_max_right _ _).trans hy))
    b1 (by
      rw [sub_le_iff_le_add]
      have h1 := le_max_left (4 : ℝ) (a + 2)
      have h2 := le_max_right (4 : ℝ) (a + 2)
      refine max_le ?_ ?_ <;> push_cast <;> linarith) (by norm_num)
  have b3 : x (K + 3 + 3 + 4) ≤ max 2.9 (a + Real.log 2) := below_after (n := K + 3 + 3) (m := 4) (g := newtonHypb N e)
    (d := 0.4) (B := max 4 (a + 2)) hstep hdec
    (fun y hy => hypb_gap_log he hroot ha ((le_max_left _ _).trans hy) ((le_max_right _ _).trans hy))
    b2 (by
      rw [sub_le_iff_le_add]
      have h1 := le_max_left (2.9 : ℝ) (a + Real.log 2)
      have h2 := le_max_right (2.9 : ℝ) (a + Real.log 2)
      refine max_le ?_ ?_ <;> push_cast <;> linarith) (by norm_num)
  have hb : ∀ k, x (K + 10 + k) ≤ max 2.9 (a + Real.log 2) := fun k => (hanti (by omega)).trans b3
  have hd := decay (δ := fun k => x (K + 10 + k) - a) (ρ := 4 / 5) (c := c) (D := 2.9) (n := n) (by norm_num)
    (by linarith) (fun k => sub_nonneg.2 (hin _))
    (by
      have := hb 0
      have h2 : max 2.9 (a + Real.log 2) ≤ a + 2.9 := max_le (by linarith) (by linarith)
      linarith)
    (fun k => by
      rw [← add_assoc, hstep]
      refine hypb_lin (one_lt_of he) hroot ha (hin _) ?_
      rcases le_max_iff.1 (hb k) with h | h
      · exact Or.inl h
      · right
        rw [← Real.exp_log (by norm_num : (0 : ℝ) < 2)]
        exact Real.exp_le_exp.2 (by linarith))
    (fun k => by rw [← add_assoc, hstep]; exact hypb_quad_of he hroot (by linarith) hc2 (hin _))
    hn m
  rw [← add_assoc] at hd
  show |kepler_equ_hypb (x (K + 10 + n + m)) e N| ≤ _
  obtain ⟨r0, r1⟩ := hypb_resid_nonneg (one_lt_of he) hroot ha (hin (K + 10 + n + m))
  rw [abs_of_nonneg r0]
  have hd1 : x (K + 10 + n + m) - a ≤ (1 / 2) ^ 2 ^ m := hd.trans (div_le_self (by positivity) hc1)
  have hdH : dH (x (K + 10 + n + m)) e ≤ e * 10 ^ 13 := by
    have h1 : x (K + 10 + n + m) ≤ 29 := ((hanti (Nat.zero_le _)).trans hB).trans hB29
    rw [dH_eq]
    have h2 : Real.cosh (x (K + 10 + n + m)) ≤ 10 ^ 13 := by
      have h3 : Real.exp (x (K + 10 + n + m)) ≤ Real.exp 1 ^ 29 := by
        rw [← Real.exp_nat_mul]; exact Real.exp_le_exp.2 (by push_cast; linarith)
      have h4 : Real.exp 1 ^ 29 ≤ 2.7182818286 ^ 29 := pow_le_pow_left₀ (Real.exp_pos 1).le Real.exp_one_lt_d9.le 29
      have h5 : Real.exp (x (K + 10 + n + m)) ≤ 10 ^ 13 := h3.trans (h4.trans (by norm_num))
      have h6 : Real.exp (-x (K + 10 + n + m)) ≤ 1 := Real.exp_le_one_iff.2 (by linarith [hin (K + 10 + n + m)])
      rw [Real.cosh_eq]
      linarith
    have := mul_le_mul_of_nonneg_left h2 (by linarith : 0 ≤ e)
    linarith
  calc kepler_equ_hypb (x (K + 10 + n + m)) e N ≤ dH (x (K + 10 + n + m)) e * (x (K + 10 + n + m) - a) := r1
    _ ≤ e * 10 ^ 13 * (1 / 2) ^ 2 ^ m := mul_le_mul hdH hd1 (sub_nonneg.2 (hin _)) (by positivity)
    _ = _ := by ring

/-- Eccentricity and a bound on the first iterate for which fifty steps suffice. -/
def HypRange (e B : ℝ) : Prop :=
  (11 / 10 ≤ e ∧ B ≤ 29) ∨ (101 / 100 ≤ e ∧ B ≤ 24) ∨ (2001 / 2000 ≤ e ∧ B ≤ 17)

theorem hypb_first_range {e N x0 : ℝ} (hN : 0 ≤ N) (hx0 : 0 ≤ x0) (h : HypRange e (newtonHypb N e x0)) (m : ℕ) :
    |kepler_equ_hypb ((newtonHypb N e)^[42 + m] x0) e N| ≤ e * (10 ^ 13 * (1 / 2) ^ 2 ^ m) := by
  rcases h with ⟨he, hB⟩ | ⟨he, hB⟩ | ⟨he, hB⟩
  · have := hypb_from_first (c := 5 / 4) (K := 22) (n := 9) (by linarith) hN hx0 (by norm_num) (by nlinarith) hB le_rfl
      (by norm_num) (by norm_num) m
    rwa [show 22 + 10 + 9 + m + 1 = 42 + m by omega] at this
  · have := hypb_from_first (c := 3.6) (K := 17) (n := 14) (by linarith) hN hx0 (by norm_num) (by nlinarith) hB (by norm_num)
      (by norm_num) (by norm_num) m
    rwa [show 17 + 10 + 14 + m + 1 = 42 + m by omega] at this
  · have := hypb_from_first (c := 16) (K := 10) (n := 21) (by linarith) hN hx0 (by norm_num) (by nlinarith) hB (by norm_num)
      (by norm_num) (by norm_num) m
    rwa [show 10 + 10 + 21 + m + 1 = 42 + m by omega] at this

variable {r v : V3 ℝ} {mu : ℝ}

/-- C58, the part that holds, in wide ranges: the start `x0 = H0 + n t` on the side of the final state (`r·v` of the
final state is positive as its mean anomaly is), and the first Newton iterate not too far out. This covers the way
in when the start is past periapsis. Missing: a start on the other side of periapsis than the final state. -/
theorem C58_wide_default_partial (hmu : 0 < mu) (ha : aOf r v mu < 0) {H0 : ℝ}
    (hH0 : IsHyperbolic mu (aOf r v mu) (eOf r v mu) r v H0) {t : ℝ}
    (hside : 0 ≤ H0 + mean_anomaly_hypb (aOf r v mu) t mu ∧ 0 ≤ meanHypb r v mu H0 t ∨
      H0 + mean_anomaly_hypb (aOf r v mu) t mu ≤ 0 ∧ meanHypb r v mu H0 t ≤ 0)
    (hrange : HypRange (eOf r v mu)
      |newtonHypb (meanHypb r v mu H0 t) (eOf r v mu) (H0 + mean_anomaly_hypb (aOf r v mu) t mu)|)
    (hsize : Real.sqrt (-aOf r v mu) ^ 3 * eOf r v mu ≤ 10 ^ 58) (max_iter : ℕ := 50) (hn : 50 ≤ max_iter) :
    ∃ χ, solve_kepler_uni t (1 / aOf r v mu) (V3.norm r) (sigma_fn r v mu) mu defaultTol max_iter = some χ ∧
      |kepler_equ_uni χ (1 / aOf r v mu) (V3.norm r) (sigma_fn r v mu) t mu| ≤ 1 / 1000000 := by
  have htol : (defaultTol : ℝ) = 1 / 1000000 := by norm_num [defaultTol]
  have hb : 0 < Real.sqrt (-aOf r v mu) := Real.sqrt_pos.2 (by linarith)
  obtain ⟨k, hk, -, hs, -, hstop⟩ := C13_uni t (1 / aOf r v mu) (V3.norm r) (sigma_fn r v mu) mu defaultTol max_iter
  refine ⟨_, hs, ?_⟩
  rcases hk.lt_or_eq with h | h
  · have := hstop h
    simp only [lt_real, abs_real, decide_eq_false_iff_not, not_lt, htol] at this
    exact this
  · rw [C58_hyperbolic_newton hmu ha hH0, (C53_hyperbolic_equation hmu ha hH0 t _).1, ← meanHypb]
    obtain ⟨m, rfl⟩ : ∃ m, k = 42 + m := ⟨k - 42, by omega⟩
    have hres : |kepler_equ_hypb ((newtonHypb (meanHypb r v mu H0 t) (eOf r v mu))^[42 + m]
        (H0 + mean_anomaly_hypb (aOf r v mu) t mu)) (eOf r v mu) (meanHypb r v mu H0 t)|
        ≤ eOf r v mu * (10 ^ 13 * (1 / 2) ^ 2 ^ m) := by
      rcases hside with ⟨h1, h2⟩ | ⟨h1, h2⟩
      · refine hypb_first_range h2 h1 ?_ m
        rcases hrange with h | h | h
        · exact Or.inl ⟨h.1, (le_abs_self _).trans h.2⟩
        · exact Or.inr (Or.inl ⟨h.1, (le_abs_self _).trans h.2⟩)
        · exact Or.inr (Or.inr ⟨h.1, (le_abs_self _).trans h.2⟩)
      · have e1 := hypb_iter_neg (meanHypb r v mu H0 t) (eOf r v mu) (H0 + mean_anomaly_hypb (aOf r v mu) t mu)
        have e0 := e1 1
        simp only [Function.iterate_one] at e0
        have := hypb_first_range (e := eOf r v mu) (neg_nonneg.2 h2) (neg_nonneg.2 h1) (by
          rw [e0]
          rcases hrange with h | h | h
          · exact Or.inl ⟨h.1, (neg_le_abs _).trans h.2⟩
          · exact Or.inr (Or.inl ⟨h.1, (neg_le_abs _).trans h.2⟩)
          · exact Or.inr (Or.inr ⟨h.1, (neg_le_abs _).trans h.2⟩)) m
        rw [e1, kep_hypb_eq, Real.sinh_neg] at this
        rw [kep_hypb_eq, ← abs_neg]
        convert this using 2
        ring
    rw [abs_mul, abs_of_pos (by positivity)]
    have h9 : (10 ^ 13 * (1 / 2) ^ 2 ^ m : ℝ) ≤ (1 / 10) ^ 64 := by
      have h8 : (1 / 2 : ℝ) ^ 2 ^ m ≤ (1 / 2) ^ 2 ^ 8 :=
        pow_le_pow_of_le_one (by norm_num) (by norm_num) (Nat.pow_le_pow_right (by norm_num) (by omega))
      exact (mul_le_mul_of_nonneg_left h8 (by positivity)).trans (by norm_num)
    have he0 : 0 ≤ eOf r v mu := by rcases hrange with h | h | h <;> linarith [h.1]
    calc Real.sqrt (-aOf r v mu) ^ 3 * |kepler_equ_hypb _ _ _|
        ≤ Real.sqrt (-aOf r v mu) ^ 3 * (eOf r v mu * (1 / 10) ^ 64) :=
          mul_le_mul_of_nonneg_left (hres.trans (mul_le_mul_of_nonneg_left h9 he0)) (by positivity)
      _ = (Real.sqrt (-aOf r v mu) ^ 3 * eOf r v mu) * (1 / 10) ^ 64 := by ring
      _ ≤ 10 ^ 58 * (1 / 10) ^ 64 := mul_le_mul_of_nonneg_right hsize (by positivity)
      _ ≤ 1 / 1000000 := by norm_num

/-- The first iterate outbound and forward. -/
theorem first_outbound {e H0 Δ : ℝ} (he : 101 / 100 ≤ e) (hH : 0 ≤ H0) (hΔ : 0 ≤ Δ) :
    newtonHypb (e * Real.sinh H0 - H0 + Δ) e (H0 + Δ) ≤ H0 + Δ + 0.99 * (H0 + Δ) / (0.01 + (H0 + Δ) ^ 2 / 2) := by
  set x0 := H0 + Δ with hx0d
  have hx0 : 0 ≤ x0 := by linarith
  have hpos := dH_pos' (by linarith : 1 < e) x0
  have hc : 1 + x0 ^ 2 / 2 ≤ Real.cosh x0 := by
    have h1 := Real.cosh_two_mul (x0 / 2)
    rw [show 2 * (x0 / 2) = x0 by ring, Real.cosh_sq] at h1
    have h2 : x0 / 2 ≤ Real.sinh (x0 / 2) := Real.self_le_sinh_iff.2 (by linarith)
    nlinarith
  have h2 : 0.01 + x0 ^ 2 / 2 ≤ dH x0 e := by rw [dH_eq]; nlinarith [sq_nonneg x0]
  have hq : 0 ≤ 0.99 * x0 / (0.01 + x0 ^ 2 / 2) := by positivity
  have : -(0.99 * x0 / (0.01 + x0 ^ 2 / 2)) ≤ kepler_equ_hypb x0 e (e * Real.sinh H0 - H0 + Δ) / dH x0 e := by
    rw [le_div_iff₀ hpos]
    have h6 : 0.99 * x0 ≤ 0.99 * x0 / (0.01 + x0 ^ 2 / 2) * dH x0 e := by
      have := mul_le_mul_of_nonneg_left h2 hq
      rwa [div_mul_cancel₀ _ (by positivity)] at this
    have ht := sinh_tangent hH hx0
    have hc1 := Real.one_le_cosh H0
    have h1 : e * (Real.sinh H0 + (x0 - H0)) ≤ e * Real.sinh x0 := by
      refine mul_le_mul_of_nonneg_left (le_trans ?_ ht) (by linarith)
      nlinarith
    have h4 : (2 - e) * Δ ≤ 0.99 * x0 := by nlinarith
    rw [kep_hypb_eq]
    have h5 : x0 - H0 = Δ := by rw [hx0d]; ring
    rw [h5] at h1
    linarith
  rw [newtonHypb_eq, newton]
  linarith

/-- C58, outbound and forward (or inbound and backward): `|H0 + n t|` up to 28.9 for `e ≥ 1.1`, up to 23.8 for
`e ≥ 1.01`. -/
theorem C58_outbound_wide_partial (hmu : 0 < mu) (hh : angular_momentum r v ≠ ⟨0, 0, 0⟩) (ha : aOf r v mu < 0) {H0 : ℝ}
    (hH0 : IsHyperbolic mu (aOf r v mu) (eOf r v mu) r v H0)
    (hsize : Real.sqrt (-aOf r v mu) ^ 3 * eOf r v mu ≤ 10 ^ 58)
    {ts : List ℝ} (hts : ∀ t ∈ ts, (0 ≤ H0 ∧ 0 ≤ t ∨ H0 ≤ 0 ∧ t ≤ 0) ∧
      (11 / 10 ≤ eOf r v mu ∧ |H0 + mean_anomaly_hypb (aOf r v mu) t mu| ≤ 28.9 ∨
        101 / 100 ≤ eOf r v mu ∧ |H0 + mean_anomaly_hypb (aOf r v mu) t mu| ≤ 23.8))
    {rs vs : List (V3 ℝ)} (hk : kepler ts r v mu = some (rs, vs)) {i : ℕ} {r' v' : V3 ℝ}
    (hr' : rs[i]? = some r') (hv' : vs[i]? = some v') :
    ∃ t t', ts[i]? = some t ∧ |t' - t| ≤ 1 / 1000000 / Real.sqrt mu ∧ (r', v') = exactProp r v mu t' := by
  obtain ⟨t, χ, t', h1, h2, h3, h4, -⟩ := C23_exact_up_to_time hmu hh hk hr' hv'
  obtain ⟨hdir, hB⟩ := hts t (List.mem_of_getElem? h1)
  have he : 101 / 100 ≤ eOf r v mu := by rcases hB with h | h <;> linarith [h.1]
  -- the bound on the first iterate, for either sign
  have key : ∀ H Δ : ℝ, 0 ≤ H → 0 ≤ Δ →
      (11 / 10 ≤ eOf r v mu ∧ H + Δ ≤ 28.9 ∨ 101 / 100 ≤ eOf r v mu ∧ H + Δ ≤ 23.8) →
      0 ≤ eOf r v mu * Real.sinh H - H + Δ ∧
      HypRange (eOf r v mu) |newtonHypb (eOf r v mu * Real.sinh H - H + Δ) (eOf r v mu) (H + Δ)| := by
    intro H Δ hH hΔ hB
    have hN : 0 ≤ eOf r v mu * Real.sinh H - H + Δ := by
      have : H ≤ Real.sinh H := Real.self_le_sinh_iff.2 hH
      nlinarith
    refine ⟨hN, ?_⟩
    obtain ⟨a, hroot, ha0⟩ := hypb_root (by linarith : 1 < eOf r v mu) hN
    rw [abs_of_nonneg (ha0.trans (hypb_right (by linarith) hroot ha0 (by linarith)))]
    have hf := first_outbound he hH hΔ
    set x := H + Δ with hxd
    have hx0 : 0 ≤ x := by linarith
    have hov : 0.99 * x / (0.01 + x ^ 2 / 2) ≤ 7.01 := by
      rw [div_le_iff₀ (by positivity)]
      nlinarith [sq_nonneg (x - 0.1412)]
    have hfar : 16.9 ≤ x → 0.99 * x / (0.01 + x ^ 2 / 2) ≤ 0.12 := fun hx => by
      rw [div_le_iff₀ (by positivity)]; nlinarith
    rcases hB with ⟨h, hx⟩ | ⟨h, hx⟩
    · refine Or.inl ⟨h, hf.trans ?_⟩
      rcases le_total x 20 with h5 | h5
      · linarith
      · have : 0.99 * x / (0.01 + x ^ 2 / 2) ≤ 0.1 := by
          rw [div_le_iff₀ (by positivity)]; nlinarith
        linarith
    · refine Or.inr (Or.inl ⟨h, hf.trans ?_⟩)
      rcases le_total x 16.9 with h5 | h5
      · linarith
      · linarith [hfar h5]
  have hΔs : ∀ s : ℝ, 0 ≤ s → 0 ≤ mean_anomaly_hypb (aOf r v mu) s mu := fun s hs => mul_nonneg (Real.sqrt_nonneg _) hs
  have hΔn : mean_anomaly_hypb (aOf r v mu) (-t) mu = -mean_anomaly_hypb (aOf r v mu) t mu := by
    simp only [mean_anomaly_hypb]; ring
  obtain ⟨χ', h5, h6⟩ : ∃ χ, solve_kepler_uni t (1 / aOf r v mu) (V3.norm r) (sigma_fn r v mu) mu defaultTol 50 = some χ ∧
      |kepler_equ_uni χ (1 / aOf r v mu) (V3.norm r) (sigma_fn r v mu) t mu| ≤ 1 / 1000000 := by
    rcases hdir with ⟨c1, c2⟩ | ⟨c1, c2⟩
    · have hΔ := hΔs t c2
      obtain ⟨k1, k2⟩ := key H0 _ c1 hΔ (by rwa [abs_of_nonneg (by linarith)] at hB)
      exact C58_wide_default_partial hmu ha hH0 (Or.inl ⟨by linarith, k1⟩) k2 hsize 50 le_rfl
    · have hΔ := hΔs (-t) (by linarith)
      rw [hΔn] at hΔ
      obtain ⟨k1, k2⟩ := key (-H0) (-mean_anomaly_hypb (aOf r v mu) t mu) (by linarith) hΔ (by
        rw [abs_of_nonpos (by linarith)] at hB
        rwa [← neg_add])
      have e2 : eOf r v mu * Real.sinh (-H0) - -H0 + -mean_anomaly_hypb (aOf r v mu) t mu = -meanHypb r v mu H0 t := by
        rw [meanHypb, Real.sinh_neg]; ring
      rw [e2] at k1 k2
      have e1 := hypb_iter_neg (meanHypb r v mu H0 t) (eOf r v mu) (H0 + mean_anomaly_hypb (aOf r v mu) t mu) 1
      simp only [Function.iterate_one] at e1
      rw [← neg_add, e1, abs_neg] at k2
      exact C58_wide_default_partial hmu ha hH0 (Or.inr ⟨by linarith, by linarith⟩) k2 hsize 50 le_rfl
  have h7 : solve_kepler_uni t (alphaOf r v mu) (V3.norm r) (sigma_fn r v mu) mu defaultTol 50 = some χ' := h5
  obtain rfl : χ' = χ := Option.some.inj (h7.symm.trans h2)
  refine ⟨t, t', h1, ?_, h4⟩
  rw [h3, add_sub_cancel_left, abs_div, abs_of_pos (Real.sqrt_pos.2 hmu)]
  exact div_le_div_of_nonneg_right h6 (Real.sqrt_nonneg _)

/-! ### where they fail -/

/-- Right of 1 no step is longer than 1. -/
theorem hypb_unit_step {N e x : ℝ} (he : 1 < e) (hN : 0 ≤ N) (hx : 1 ≤ x) : x - 1 ≤ newtonHypb N e x := by
  have hpos : 0 < dH x e := by rw [dH_eq]; nlinarith [Real.one_le_cosh x]
  have : kepler_equ_hypb x e N / dH x e ≤ 1 := by
    rw [div_le_iff₀ hpos, kep_hypb_eq, dH_eq]
    have := mul_le_mul_of_nonneg_left (Real.sinh_lt_cosh x).le (by linarith : 0 ≤ e)
    linarith
  rw [newtonHypb_eq, newton]
  linarith

theorem hypb_unit_iter {N e x : ℝ} (he : 1 < e) (hN : 0 ≤ N) (hx : 55 ≤ x) (k : ℕ) (hk : k ≤ 50) :
    x - k ≤ (newtonHypb N e)^[k] x := by
  induction k with
  | zero => simp
  | succ k ih =>
    have ih' := ih (by omega)
    have hk' : (k : ℝ) ≤ 49 := by exact_mod_cast (by omega : k ≤ 49)
    rw [Function.iterate_succ_apply']
    have := hypb_unit_step he hN (x := (newtonHypb N e)^[k] x) (by linarith)
    push_cast
    linarith

/-- From the periapsis of any hyperbola, once the mean anomaly `n t` reaches 55, `kepler` with its default settings
returns the state of at least five fourths of the requested time. -/
theorem C58_periapsis_near_refuted (hmu : 0 < mu) (hh : angular_momentum r v ≠ ⟨0, 0, 0⟩) (ha : aOf r v mu < 0)
    (hσ : sigma_fn r v mu = 0) {t : ℝ} (ht : 55 ≤ mean_anomaly_hypb (aOf r v mu) t mu) :
    ∃ r' v' t', kepler [t] r v mu = some ([r'], [v']) ∧ (r', v') = exactProp r v mu t' ∧ 5 / 4 * t ≤ t' := by
  have he := one_lt_ecc hmu hh ha
  have hb : 0 < Real.sqrt (-aOf r v mu) := Real.sqrt_pos.2 (by linarith)
  obtain ⟨H0, hH0, -⟩ := C53_hyperbolic_existsUnique hmu hh ha
  have hz : H0 = 0 := by
    have := ((isHyperbolic_iff hmu ha).1 hH0).2
    rw [hσ] at this
    rcases mul_eq_zero.1 this.symm with h | h
    · exact absurd h hb.ne'
    · rcases mul_eq_zero.1 h with h | h
      · linarith
      · exact Real.sinh_eq_zero.1 h
  subst hz
  obtain ⟨r', v', t', k, h1, h2, h3, h4⟩ := hypb_kepler_row hmu hh ha hH0 t
  refine ⟨r', v', t', h1, h2, ?_⟩
  have hN : meanHypb r v mu 0 t = mean_anomaly_hypb (aOf r v mu) t mu := by simp [meanHypb]
  rw [hN, zero_add] at h4
  set N := mean_anomaly_hypb (aOf r v mu) t mu with hNd
  have h5 : 1 / 4 * N ≤ kepler_equ_hypb ((newtonHypb N (eOf r v mu))^[k] N) (eOf r v mu) N := by
    have hit := hypb_unit_iter he (by linarith : 0 ≤ N) ht k h3
    have hk' : (k : ℝ) ≤ 50 := by exact_mod_cast h3
    set y := (newtonHypb N (eOf r v mu))^[k] N
    have hy : 5 ≤ y := by linarith
    have hE : (148.33 : ℝ) ≤ Real.exp 5 := exp_ge_of_pow (p := 5) (q := 1) (by norm_num) (by norm_num) (by norm_num)
    have hm : Real.exp (-5 : ℝ) ≤ 0.01 := by
      have : Real.exp (-5 : ℝ) * Real.exp 5 = 1 := by rw [← Real.exp_add]; norm_num
      nlinarith [Real.exp_pos (-5 : ℝ)]
    have hs5 : (74.16 : ℝ) ≤ Real.sinh 5 := by rw [Real.sinh_eq]; linarith
    have hc5 : (74.16 : ℝ) ≤ Real.cosh 5 := by rw [Real.cosh_eq]; linarith [Real.exp_pos (-5 : ℝ)]
    have htan := sinh_tangent (by norm_num : (0 : ℝ) ≤ 5) (by linarith : 0 ≤ y)
    have hs : 74.16 + (y - 5) * 74.16 ≤ Real.sinh y := by nlinarith
    have hs' : Real.sinh y ≤ eOf r v mu * Real.sinh y := by nlinarith
    rw [kep_hypb_eq]
    linarith
  have h6 := hypb_time hmu ha t
  have hs : 0 < Real.sqrt mu := Real.sqrt_pos.2 hmu
  have h7 : Real.sqrt (-aOf r v mu) ^ 3 * (1 / 4 * N) ≤ (t' - t) * Real.sqrt mu := by
    rw [h4]; exact mul_le_mul_of_nonneg_left h5 (by positivity)
  have h8 : (1 / 4 * t) * Real.sqrt mu ≤ (t' - t) * Real.sqrt mu := by
    rw [← hNd] at h6
    calc (1 / 4 * t) * Real.sqrt mu = 1 / 4 * (t * Real.sqrt mu) := by ring
      _ = Real.sqrt (-aOf r v mu) ^ 3 * (1 / 4 * N) := by rw [h6]; ring
      _ ≤ _ := h7
  have h9 := le_of_mul_le_mul_right h8 hs
  linarith

/-! ### the hyperbola with `e = 6/5` -/

/-- Every time of flight up to 28.9 either way from periapsis is met; 55 is not. -/
theorem C58_wide_example :
    (∀ t : ℝ, |t| ≤ 28.9 → ∃ r' v' t', kepler [t] (hypR (6 / 5) 0) (hypV (6 / 5) 0) 1 = some ([r'], [v']) ∧
      |t' - t| ≤ 1 / 1000000 ∧ (r', v') = exactProp (hypR (6 / 5) 0) (hypV (6 / 5) 0) 1 t') ∧
    ∃ r' v' t', kepler [55] (hypR (6 / 5) 0) (hypV (6 / 5) 0) 1 = some ([r'], [v']) ∧
      (r', v') = exactProp (hypR (6 / 5) 0) (hypV (6 / 5) 0) 1 t' ∧ 68 ≤ t' := by
  obtain ⟨a1, a2, a3, a4⟩ := hyp_state (by norm_num : (1 : ℝ) < 6 / 5) 0
  constructor
  · intro t ht
    obtain ⟨⟨rs, vs⟩, hk⟩ : ∃ p, kepler [t] (hypR (6 / 5) 0) (hypV (6 / 5) 0) 1 = some p := ⟨_, kepler_eq_map ..⟩
    have hlen : rs.length = 1 ∧ vs.length = 1 := by
      have hk' := hk
      rw [kepler_eq_map] at hk'
      obtain ⟨rfl, rfl⟩ := Prod.mk.inj (Option.some.inj hk')
      simp
    obtain ⟨r', rfl⟩ := List.length_eq_one_iff.1 hlen.1
    obtain ⟨v', rfl⟩ := List.length_eq_one_iff.1 hlen.2
    obtain ⟨t1, t', b1, b2, b3⟩ := C58_outbound_wide_partial one_pos a1 (by rw [a2]; norm_num)
      (H0 := 0) (by rw [a2, a3]; exact a4)
      (by rw [a2, a3, neg_neg, Real.sqrt_one, one_pow, one_mul]
          exact le_trans (by norm_num : (6 / 5 : ℝ) ≤ 10 ^ 1) (pow_le_pow_right₀ (by norm_num) (by norm_num)))
      (by
        simp only [List.mem_singleton, forall_eq, a2, a3, mean_hypb_unit, zero_add, le_refl, true_and]
        exact ⟨le_total 0 t, Or.inl ⟨by norm_num, ht⟩⟩) hk (i := 0) (r' := r') (v' := v') rfl rfl
    obtain rfl : t = t1 := by simpa using b1
    exact ⟨r', v', t', hk, by simpa using b2, b3⟩
  · have hσ : sigma_fn (hypR (6 / 5) 0) (hypV (6 / 5) 0) 1 = 0 := by
      have := ((isHyperbolic_iff one_pos (by norm_num)).1 a4).2
      simpa using this
    obtain ⟨r', v', t', a, b, c⟩ := C58_periapsis_near_refuted one_pos a1 (by rw [a2]; norm_num) hσ (t := 55)
      (by rw [a2, mean_hypb_unit])
    exact ⟨r', v', t', a, b, by linarith⟩

/-- On the way in: `e = 2`, from hyperbolic anomaly `-1` past periapsis with a time of flight of 3. -/
example : ∃ χ, solve_kepler_uni 3 (1 / aOf (hypR 2 (-1)) (hypV 2 (-1)) 1) (V3.norm (hypR 2 (-1)))
      (sigma_fn (hypR 2 (-1)) (hypV 2 (-1)) 1) 1 defaultTol 50 = some χ ∧
    |kepler_equ_uni χ (1 / aOf (hypR 2 (-1)) (hypV 2 (-1)) 1) (V3.norm (hypR 2 (-1)))
      (sigma_fn (hypR 2 (-1)) (hypV 2 (-1)) 1) 3 1| ≤ (1 : ℝ) / 1000000 := by
  obtain ⟨a1, a2, a3, a4⟩ := hyp_state (by norm_num : (1 : ℝ) < 2) (-1)
  have hE := Real.exp_one_lt_d9
  have hs1 : 1 ≤ Real.sinh 1 := Real.self_le_sinh_iff.2 (by norm_num)
  have hs1' : Real.sinh 1 ≤ 1.4 := by rw [Real.sinh_eq]; linarith [Real.exp_pos (-1 : ℝ)]
  have hs2 : 2 ≤ Real.sinh 2 := Real.self_le_sinh_iff.2 (by norm_num)
  have hNe : meanHypb (hypR 2 (-1)) (hypV 2 (-1)) 1 (-1) 3 = 4 - 2 * Real.sinh 1 := by
    rw [meanHypb, a2, a3, mean_hypb_unit, Real.sinh_neg]; ring
  have hN : (0 : ℝ) ≤ 4 - 2 * Real.sinh 1 := by linarith
  obtain ⟨a, hroot, ha0⟩ := hypb_root (by norm_num : (1 : ℝ) < 2) hN
  refine C58_wide_default_partial one_pos (by rw [a2]; norm_num) (H0 := -1) (by rw [a2, a3]; exact a4)
    (Or.inl ⟨by rw [a2, mean_hypb_unit]; norm_num, by rw [hNe]; exact hN⟩) ?_ ?_ 50 le_rfl
  · rw [hNe, a2, a3, mean_hypb_unit, show (-1 : ℝ) + 3 = 2 by norm_num,
      abs_of_nonneg (ha0.trans (hypb_right (by norm_num) hroot ha0 (by norm_num)))]
    refine Or.inl ⟨by norm_num, ?_⟩
    have hpos := dH_pos' (by norm_num : (1 : ℝ) < 2) 2
    have : 0 ≤ kepler_equ_hypb (2 : ℝ) 2 (4 - 2 * Real.sinh 1) / dH 2 2 :=
      div_nonneg (by rw [kep_hypb_eq]; linarith) hpos.le
    rw [newtonHypb_eq, newton]
    linarith
  · rw [a2, a3, neg_neg, Real.sqrt_one, one_pow, one_mul]
    exact le_trans (by norm_num : (2 : ℝ) ≤ 10 ^ 1) (pow_le_pow_right₀ (by norm_num) (by norm_num))

end Adx
