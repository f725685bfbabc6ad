import Verif.Props.C58b

/-! # C58: further out on hyperbolas

When the root lies beyond 2.21 the steps near it are counted more closely: eight from a distance of 6, then three
linear and six quadratic ones. The fifty steps then suffice from a first iterate up to 39.9. -/

namespace Adx
open Set Spec

section
variable {N e a : ℝ} (he : 11 / 10 ≤ e) (hroot : kepler_equ_hypb a e N = 0) (ha : 2.21 ≤ a)
include he hroot ha

theorem hypb_gap_mid {x : ℝ} (hx : a + 1.2 ≤ x) : newtonHypb N e x ≤ x - 0.6 :=
  hypb_gap_step (by linarith) hroot (by linarith) (δ := 1.2) (X := 3.4) (E := 3.3) (C := 29) (by norm_num) hx
    (by linarith)
    (exp_ge_of_pow (p := 12) (q := 10) (by norm_num) (by norm_num) (by norm_num)) (by norm_num)
    (exp_ge_of_pow (p := 34) (q := 10) (by norm_num) (by norm_num) (by norm_num)) (by norm_num) (by norm_num) (by norm_num)
    (by linarith)

/-- One step of the count. -/
theorem hypb_count {x g s d : ℝ} (hax : a ≤ x) (hx : x ≤ a + g) (hs : ∀ y, a + s ≤ y → newtonHypb N e y ≤ y - d)
    {g' : ℝ} (h1 : s ≤ g') (h2 : g - d ≤ g') : newtonHypb N e x ≤ a + g' := by
  rcases le_total (a + s) x with h | h
  · linarith [hs x h]
  · have := hypb_decreases (by linarith : 1 < e) hroot (by linarith) hax
    linarith

/-- Eight steps from a distance of 6 to one of `log 2`. -/
theorem hypb_eight {x : ℝ} (hax : a ≤ x) (hx : x ≤ a + 6) : (newtonHypb N e)^[8] x ≤ a + Real.log 2 := by
  have he' : 2001 / 2000 ≤ e := by linarith
  have ha0 : 0 ≤ a := by linarith
  have hl := Real.log_two_gt_d9
  have four : ∀ y, a + 4 ≤ y → newtonHypb N e y ≤ y - 0.96 := fun y hy =>
    hypb_gap_four he' hroot ha0 (by linarith) hy
  have two : ∀ y, a + 2 ≤ y → newtonHypb N e y ≤ y - 0.8 := fun y hy => hypb_gap_two he' hroot ha0 (by linarith) hy
  have mid : ∀ y, a + 1.2 ≤ y → newtonHypb N e y ≤ y - 0.6 := fun y hy => hypb_gap_mid he hroot ha hy
  have log : ∀ y, a + Real.log 2 ≤ y → newtonHypb N e y ≤ y - 0.4 := fun y hy =>
    hypb_gap_log he' hroot ha0 (by linarith) hy
  have hin : ∀ k, a ≤ (newtonHypb N e)^[k] x := by
    intro k
    induction k with
    | zero => exact hax
    | succ k ih =>
      rw [Function.iterate_succ_apply']
      exact hypb_right (by linarith) hroot ha0 (ha0.trans ih)
  have c := fun {g s d g'} (k : ℕ) => hypb_count he hroot ha (g := g) (s := s) (d := d) (g' := g') (hin k)
  simp only [← Function.iterate_succ_apply' (newtonHypb N e)] at c
  have b1 := c (g' := 5.04) 0 hx four (by norm_num) (by norm_num)
  have b2 := c (g' := 4.08) 1 b1 four (by norm_num) (by norm_num)
  have b3 := c (g' := 3.28) 2 b2 two (by norm_num) (by norm_num)
  have b4 := c (g' := 2.48) 3 b3 two (by norm_num) (by norm_num)
  have b5 := c (g' := 1.88) 4 b4 mid (by norm_num) (by norm_num)
  have b6 := c (g' := 1.28) 5 b5 mid (by norm_num) (by norm_num)
  have b7 := c (g' := 0.88) 6 b6 log (by have := Real.log_two_lt_d9; linarith) (by norm_num)
  exact c (g' := Real.log 2) 7 b7 log le_rfl (by linarith)

end

/-- Residuals of the iterates from a start `x0 ≥ 0` whose first iterate is at most 39.9. -/
theorem hypb_far_residual {e N x0 : ℝ} (he : 11 / 10 ≤ e) (hN : 4.6 * e ≤ N) (hx0 : 0 ≤ x0)
    (hB : newtonHypb N e x0 ≤ 39.9) (m : ℕ) :
    |kepler_equ_hypb ((newtonHypb N e)^[44 + m] x0) e N| ≤ 162 * (N + e) * (1 / 2) ^ 2 ^ m := by
  have he1 : 1 < e := by linarith
  have he' : 2001 / 2000 ≤ e := by linarith
  have hN0 : 0 ≤ N := by linarith
  obtain ⟨a, hroot, ha0⟩ := hypb_root he1 hN0
  have ha : 2.21 ≤ a := by
    by_contra hlt
    push Not at hlt
    have h1 : Real.sinh a ≤ 4.6 := by
      have h2 : Real.exp a ≤ 9.2 := by
        have h3 : Real.exp a ≤ Real.exp 2.21 := Real.exp_le_exp.2 hlt.le
        have h4 : Real.exp 2.21 ^ 100 ≤ 9.2 ^ 100 := by
          rw [← Real.exp_nat_mul, show ((100 : ℕ) : ℝ) * 2.21 = ((221 : ℕ) : ℝ) * 1 by norm_num, Real.exp_nat_mul]
          exact (pow_le_pow_left₀ (Real.exp_pos 1).le Real.exp_one_lt_d9.le 221).trans (by norm_num)
        exact h3.trans (le_of_pow_le_pow_left₀ (by norm_num) (by norm_num) h4)
      rw [Real.sinh_eq]
      linarith [Real.exp_pos (-a)]
    rw [kep_hypb_eq] at hroot
    have h5 : e * Real.sinh a ≤ e * 4.6 := mul_le_mul_of_nonneg_left h1 (by linarith)
    have h6 : a ≤ 0 := by linarith
    have h7 : a = 0 := le_antisymm h6 ha0
    rw [h7] at hroot
    simp at hroot
    linarith
  set x : ℕ → ℝ := fun k => (newtonHypb N e)^[k + 1] x0 with hx
  have hstep : ∀ k, x (k + 1) = newtonHypb N e (x k) := fun k => by
    simp only [hx, Function.iterate_succ_apply']
  have hin : ∀ k, a ≤ x k := by
    intro k
    induction k with
    | zero => exact hypb_right he1 hroot ha0 hx0
    | succ k ih =>
      rw [hstep]
      exact hypb_right he1 hroot ha0 (ha0.trans ih)
  have hdec : ∀ k, x (k + 1) ≤ x k := fun k => by
    rw [hstep]; exact hypb_decreases he1 hroot ha0 (hin k)
  have hanti : Antitone x := antitone_nat_of_succ_le hdec
  have hl := Real.log_two_lt_d9
  have b0 : x (0 + 32) ≤ a + 6 := below_after (n := 0) (m := 32) (g := newtonHypb N e) (d := 0.992) (B := 39.9)
    hstep hdec (fun y hy => hypb_gap_six he' hroot ha0 (by linarith) hy) hB (by norm_num; linarith) (by norm_num)
  have b1 : x 40 ≤ a + Real.log 2 := by
    have h := hypb_eight he hroot ha (hin 32) b0
    have : (newtonHypb N e)^[8] (x 32) = x 40 := by
      simp only [hx]
      rw [← Function.iterate_add_apply]
    rwa [this] at h
  have hb : ∀ k, x (40 + k) ≤ a + Real.log 2 := fun k => (hanti (by omega)).trans b1
  have hd := decay (δ := fun k => x (40 + k) - a) (ρ := 4 / 5) (c := 5 / 4) (D := 0.6932) (n := 3) (by norm_num)
    (by norm_num) (fun k => sub_nonneg.2 (hin _))
    (by have := hb 0; linarith)
    (fun k => by
      rw [← add_assoc, hstep]
      refine hypb_lin he1 hroot ha0 (hin _) (.inr ?_)
      rw [← Real.exp_log (by norm_num : (0 : ℝ) < 2)]
      exact Real.exp_le_exp.2 (by linarith [hb k]))
    (fun k => by rw [← add_assoc, hstep]; exact hypb_quad_of he' hroot (by norm_num) (by nlinarith) (hin _))
    (by norm_num) m
  rw [← add_assoc, show 40 + 3 + m = 43 + m by omega] at hd
  rw [show 44 + m = 43 + m + 1 by omega]
  show |kepler_equ_hypb (x (43 + m)) e N| ≤ _
  obtain ⟨r0, r1⟩ := hypb_resid_nonneg he1 hroot ha0 (hin (43 + m))
  rw [abs_of_nonneg r0]
  have hd1 : x (43 + m) - a ≤ (1 / 2) ^ 2 ^ m := hd.trans (div_le_self (by positivity) (by norm_num))
  have hdH : dH (x (43 + m)) e ≤ 162 * (N + e) := by
    have h1 : x (43 + m) ≤ a + Real.log 2 := by
      rw [show 43 + m = 40 + (3 + m) by omega]; exact hb _
    have h2 : Real.exp (x (43 + m)) ≤ 2 * Real.exp a := by
      refine (Real.exp_le_exp.2 h1).trans ?_
      rw [Real.exp_add, Real.exp_log (by norm_num)]; linarith
    have h3 : Real.exp (-x (43 + m)) ≤ 1 := Real.exp_le_one_iff.2 (by linarith [hin (43 + m)])
    have h4 : Real.exp (-a) ≤ 1 := Real.exp_le_one_iff.2 (by linarith)
    have h5 : a ≤ 40 := (hin 0).trans (hB.trans (by norm_num))
    rw [kep_hypb_eq, Real.sinh_eq] at hroot
    rw [dH_eq, Real.cosh_eq]
    have h6 : e * ((Real.exp (x (43 + m)) + Real.exp (-x (43 + m))) / 2) ≤ e * (Real.exp a + 1 / 2) :=
      mul_le_mul_of_nonneg_left (by linarith) (by linarith)
    have h7 : e * Real.exp (-a) ≤ e * 1 := mul_le_mul_of_nonneg_left h4 (by linarith)
    have h8 : e * Real.exp a = 2 * (N + a) + e * Real.exp (-a) := by linarith
    nlinarith
  calc kepler_equ_hypb (x (43 + m)) e N ≤ dH (x (43 + m)) e * (x (43 + m) - a) := r1
    _ ≤ 162 * (N + e) * (1 / 2) ^ 2 ^ m := mul_le_mul hdH hd1 (sub_nonneg.2 (hin _)) (by linarith)

variable {r v : V3 ℝ} {mu : ℝ}

/-- C58, the part that holds, further out: for `e ≥ 1.1` and a mean anomaly of the final state of at least `4.6 e`
the default call meets its tolerance when the first Newton iterate is at most 39.9.
Missing: first iterates between 39.9 and 55, starts on the other side of periapsis than the final state. -/
theorem C58_far_default_partial (hmu : 0 < mu) (ha : aOf r v mu < 0) {H0 : ℝ}
    (hH0 : IsHyperbolic mu (aOf r v mu) (eOf r v mu) r v H0) (he : 11 / 10 ≤ eOf r v mu) {t : ℝ}
    (hside : 0 ≤ H0 + mean_anomaly_hypb (aOf r v mu) t mu ∧ 4.6 * eOf r v mu ≤ meanHypb r v mu H0 t ∨
      H0 + mean_anomaly_hypb (aOf r v mu) t mu ≤ 0 ∧ meanHypb r v mu H0 t ≤ -(4.6 * eOf r v mu))
    (hB : |newtonHypb (meanHypb r v mu H0 t) (eOf r v mu) (H0 + mean_anomaly_hypb (aOf r v mu) t mu)| ≤ 39.9)
    (hsize : Real.sqrt (-aOf r v mu) ^ 3 * (|meanHypb r v mu H0 t| + eOf r v mu) ≤ 10 ^ 10) (max_iter : ℕ := 50)
    (hn : 50 ≤ max_iter) :
    ∃ χ, solve_kepler_uni t (1 / aOf r v mu) (V3.norm r) (sigma_fn r v mu) mu defaultTol max_iter = some χ ∧
      |kepler_equ_uni χ (1 / aOf r v mu) (V3.norm r) (sigma_fn r v mu) t mu| ≤ 1 / 1000000 := by
  have htol : (defaultTol : ℝ) = 1 / 1000000 := by norm_num [defaultTol]
  have hb : 0 < Real.sqrt (-aOf r v mu) := Real.sqrt_pos.2 (by linarith)
  obtain ⟨k, hk, -, hs, -, hstop⟩ := C13_uni t (1 / aOf r v mu) (V3.norm r) (sigma_fn r v mu) mu defaultTol max_iter
  refine ⟨_, hs, ?_⟩
  rcases hk.lt_or_eq with h | h
  · have := hstop h
    simp only [lt_real, abs_real, decide_eq_false_iff_not, not_lt, htol] at this
    exact this
  · rw [C58_hyperbolic_newton hmu ha hH0, (C53_hyperbolic_equation hmu ha hH0 t _).1, ← meanHypb]
    obtain ⟨m, rfl⟩ : ∃ m, k = 44 + m := ⟨k - 44, by omega⟩
    have hres : |kepler_equ_hypb ((newtonHypb (meanHypb r v mu H0 t) (eOf r v mu))^[44 + m]
        (H0 + mean_anomaly_hypb (aOf r v mu) t mu)) (eOf r v mu) (meanHypb r v mu H0 t)|
        ≤ 162 * (|meanHypb r v mu H0 t| + eOf r v mu) * (1 / 2) ^ 2 ^ m := by
      rcases hside with ⟨h1, h2⟩ | ⟨h1, h2⟩
      · rw [abs_of_nonneg (by linarith : 0 ≤ meanHypb r v mu H0 t)]
        exact hypb_far_residual he h2 h1 ((le_abs_self _).trans hB) m
      · have e1 := hypb_iter_neg (meanHypb r v mu H0 t) (eOf r v mu) (H0 + mean_anomaly_hypb (aOf r v mu) t mu)
        have e0 := e1 1
        simp only [Function.iterate_one] at e0
        have := hypb_far_residual (e := eOf r v mu) (N := -meanHypb r v mu H0 t) he (by linarith) (neg_nonneg.2 h1)
          (by rw [e0]; exact (neg_le_abs _).trans hB) m
        rw [e1, kep_hypb_eq, Real.sinh_neg] at this
        rw [kep_hypb_eq, ← abs_neg, abs_of_nonpos (by linarith : meanHypb r v mu H0 t ≤ 0)]
        convert this using 2
        ring
    rw [abs_mul, abs_of_pos (by positivity)]
    have h8 : (1 / 2 : ℝ) ^ 2 ^ m ≤ (1 / 2) ^ 2 ^ 6 :=
      pow_le_pow_of_le_one (by norm_num) (by norm_num) (Nat.pow_le_pow_right (by norm_num) (by omega))
    have h9 : 0 ≤ |meanHypb r v mu H0 t| + eOf r v mu := add_nonneg (abs_nonneg _) (by linarith)
    calc Real.sqrt (-aOf r v mu) ^ 3 * |kepler_equ_hypb _ _ _|
        ≤ Real.sqrt (-aOf r v mu) ^ 3 * (162 * (|meanHypb r v mu H0 t| + eOf r v mu) * (1 / 2) ^ 2 ^ 6) :=
          mul_le_mul_of_nonneg_left (hres.trans (mul_le_mul_of_nonneg_left h8 (by linarith))) (by positivity)
      _ = (Real.sqrt (-aOf r v mu) ^ 3 * (|meanHypb r v mu H0 t| + eOf r v mu)) * (162 * (1 / 2) ^ 2 ^ 6) := by ring
      _ ≤ 10 ^ 10 * (162 * (1 / 2) ^ 2 ^ 6) := mul_le_mul_of_nonneg_right hsize (by positivity)
      _ ≤ 1 / 1000000 := by norm_num

/-- C58, outbound and forward (or inbound and backward), `e ≥ 1.1`: `|H0 + n t|` up to 39.8, from a mean anomaly of
the final state of `4.6 e` on (below it: `C58_outbound_wide_partial`). -/
theorem C58_kepler_far_partial (hmu : 0 < mu) (hh : angular_momentum r v ≠ ⟨0, 0, 0⟩) (ha : aOf r v mu < 0) {H0 : ℝ}
    (hH0 : IsHyperbolic mu (aOf r v mu) (eOf r v mu) r v H0) (he : 11 / 10 ≤ eOf r v mu)
    {ts : List ℝ} (hts : ∀ t ∈ ts, (0 ≤ H0 ∧ 0 ≤ t ∨ H0 ≤ 0 ∧ t ≤ 0) ∧
      |H0 + mean_anomaly_hypb (aOf r v mu) t mu| ≤ 39.8 ∧ 4.6 * eOf r v mu ≤ |meanHypb r v mu H0 t| ∧
      Real.sqrt (-aOf r v mu) ^ 3 * (|meanHypb r v mu H0 t| + eOf r v mu) ≤ 10 ^ 10)
    {rs vs : List (V3 ℝ)} (hk : kepler ts r v mu = some (rs, vs)) {i : ℕ} {r' v' : V3 ℝ}
    (hr' : rs[i]? = some r') (hv' : vs[i]? = some v') :
    ∃ t t', ts[i]? = some t ∧ |t' - t| ≤ 1 / 1000000 / Real.sqrt mu ∧ (r', v') = exactProp r v mu t' := by
  obtain ⟨t, χ, t', h1, h2, h3, h4, -⟩ := C23_exact_up_to_time hmu hh hk hr' hv'
  obtain ⟨hdir, hB, hlow, hsize⟩ := hts t (List.mem_of_getElem? h1)
  have key : ∀ H Δ : ℝ, 0 ≤ H → 0 ≤ Δ → H + Δ ≤ 39.8 →
      0 ≤ eOf r v mu * Real.sinh H - H + Δ ∧
      |newtonHypb (eOf r v mu * Real.sinh H - H + Δ) (eOf r v mu) (H + Δ)| ≤ 39.9 := by
    intro H Δ hH hΔ hB
    have hN : 0 ≤ eOf r v mu * Real.sinh H - H + Δ := by
      have : H ≤ Real.sinh H := Real.self_le_sinh_iff.2 hH
      nlinarith
    refine ⟨hN, ?_⟩
    obtain ⟨a, hroot, ha0⟩ := hypb_root (by linarith : 1 < eOf r v mu) hN
    rw [abs_of_nonneg (ha0.trans (hypb_right (by linarith) hroot ha0 (by linarith)))]
    have hf := first_outbound (by linarith : 101 / 100 ≤ eOf r v mu) hH hΔ
    set x := H + Δ with hxd
    have hx0 : 0 ≤ x := by linarith
    refine hf.trans ?_
    rcases le_total x 20 with h5 | h5
    · have hov : 0.99 * x / (0.01 + x ^ 2 / 2) ≤ 7.01 := by
        rw [div_le_iff₀ (by positivity)]
        nlinarith [sq_nonneg (x - 0.1412)]
      linarith
    · have : 0.99 * x / (0.01 + x ^ 2 / 2) ≤ 0.1 := by
        rw [div_le_iff₀ (by positivity)]; nlinarith
      linarith
  have hΔs : ∀ s : ℝ, 0 ≤ s → 0 ≤ mean_anomaly_hypb (aOf r v mu) s mu := fun s hs => mul_nonneg (Real.sqrt_nonneg _) hs
  have hΔn : mean_anomaly_hypb (aOf r v mu) (-t) mu = -mean_anomaly_hypb (aOf r v mu) t mu := by
    simp only [mean_anomaly_hypb]; ring
  obtain ⟨χ', h5, h6⟩ : ∃ χ, solve_kepler_uni t (1 / aOf r v mu) (V3.norm r) (sigma_fn r v mu) mu defaultTol 50 = some χ ∧
      |kepler_equ_uni χ (1 / aOf r v mu) (V3.norm r) (sigma_fn r v mu) t mu| ≤ 1 / 1000000 := by
    rcases hdir with ⟨c1, c2⟩ | ⟨c1, c2⟩
    · have hΔ := hΔs t c2
      obtain ⟨k1, k2⟩ := key H0 _ c1 hΔ (by rwa [abs_of_nonneg (by linarith)] at hB)
      refine C58_far_default_partial hmu ha hH0 he (Or.inl ⟨by linarith, ?_⟩) k2 hsize 50 le_rfl
      rwa [abs_of_nonneg (show 0 ≤ meanHypb r v mu H0 t from k1)] at hlow
    · have hΔ := hΔs (-t) (by linarith)
      rw [hΔn] at hΔ
      obtain ⟨k1, k2⟩ := key (-H0) (-mean_anomaly_hypb (aOf r v mu) t mu) (by linarith) hΔ (by
        rw [abs_of_nonpos (by linarith)] at hB
        rwa [← neg_add])
      have e2 : eOf r v mu * Real.sinh (-H0) - -H0 + -mean_anomaly_hypb (aOf r v mu) t mu = -meanHypb r v mu H0 t := by
        rw [meanHypb, Real.sinh_neg]; ring
      rw [e2] at k1 k2
      have e1 := hypb_iter_neg (meanHypb r v mu H0 t) (eOf r v mu) (H0 + mean_anomaly_hypb (aOf r v mu) t mu) 1
      simp only [Function.iterate_one] at e1
      rw [← neg_add, e1, abs_neg] at k2
      rw [abs_of_nonpos (by linarith)] at hlow
      exact C58_far_default_partial hmu ha hH0 he (Or.inr ⟨by linarith, by linarith⟩) k2 hsize 50 le_rfl
  have h7 : solve_kepler_uni t (alphaOf r v mu) (V3.norm r) (sigma_fn r v mu) mu defaultTol 50 = some χ' := h5
  obtain rfl : χ' = χ := Option.some.inj (h7.symm.trans h2)
  refine ⟨t, t', h1, ?_, h4⟩
  rw [h3, add_sub_cancel_left, abs_div, abs_of_pos (Real.sqrt_pos.2 hmu)]
  exact div_le_div_of_nonneg_right h6 (Real.sqrt_nonneg _)

/-- The hyperbola with `e = 6/5`: every time of flight up to 39.8 either way from periapsis is met. -/
theorem C58_far_example (t : ℝ) (ht : |t| ≤ 39.8) :
    ∃ r' v' t', kepler [t] (hypR (6 / 5) 0) (hypV (6 / 5) 0) 1 = some ([r'], [v']) ∧
      |t' - t| ≤ 1 / 1000000 ∧ (r', v') = exactProp (hypR (6 / 5) 0) (hypV (6 / 5) 0) 1 t' := by
  rcases le_total |t| 28.9 with hs | hl
  · exact C58_wide_example.1 t hs
  obtain ⟨a1, a2, a3, a4⟩ := hyp_state (by norm_num : (1 : ℝ) < 6 / 5) 0
  obtain ⟨⟨rs, vs⟩, hk⟩ : ∃ p, kepler [t] (hypR (6 / 5) 0) (hypV (6 / 5) 0) 1 = some p := ⟨_, kepler_eq_map ..⟩
  have hlen : rs.length = 1 ∧ vs.length = 1 := by
    have hk' := hk
    rw [kepler_eq_map] at hk'
    obtain ⟨rfl, rfl⟩ := Prod.mk.inj (Option.some.inj hk')
    simp
  obtain ⟨r', rfl⟩ := List.length_eq_one_iff.1 hlen.1
  obtain ⟨v', rfl⟩ := List.length_eq_one_iff.1 hlen.2
  have hm : meanHypb (hypR (6 / 5) 0) (hypV (6 / 5) 0) 1 0 t = t := by
    rw [meanHypb, a2, mean_hypb_unit, Real.sinh_zero]; ring
  obtain ⟨t1, t', b1, b2, b3⟩ := C58_kepler_far_partial one_pos a1 (by rw [a2]; norm_num)
    (H0 := 0) (by rw [a2, a3]; exact a4) (by rw [a3]; norm_num)
    (by
      simp only [List.mem_singleton, forall_eq, a2, a3, mean_hypb_unit, zero_add, le_refl, true_and, hm]
      refine ⟨le_total 0 t, ht, by norm_num at hl ⊢; linarith, ?_⟩
      rw [neg_neg, Real.sqrt_one, one_pow, one_mul]
      norm_num at ht ⊢; linarith) hk (i := 0) (r' := r') (v' := v') rfl rfl
  obtain rfl : t = t1 := by simpa using b1
  exact ⟨r', v', t', hk, by simpa using b2, b3⟩

end Adx
