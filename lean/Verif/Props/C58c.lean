import Verif.Props.C58b
import Verif.Props.C18h

/-! # C58, continued: every eccentricity above 1

Once an iterate of the root search is on the side of periapsis of the final state, every later step at least halves the
residual, however close to 1 the eccentricity is (`Props/C18h`). -/

namespace Adx
open Set Spec

theorem hypb_halve_iter {N e : ℝ} (he : 1 < e) (hN : 0 ≤ N) {x : ℝ} (hx : 0 ≤ x) (k : ℕ) :
    0 ≤ (newtonHypb N e)^[k + 1] x ∧ 0 ≤ kepler_equ_hypb ((newtonHypb N e)^[k + 1] x) e N ∧
    kepler_equ_hypb ((newtonHypb N e)^[k + 1] x) e N ≤ kepler_equ_hypb (newtonHypb N e x) e N / 2 ^ k := by
  induction k with
  | zero =>
    obtain ⟨h1, h2⟩ := hypb_next he hN hx
    refine ⟨h1, h2, ?_⟩
    simp
  | succ k ih =>
    rw [Function.iterate_succ_apply']
    obtain ⟨h1, h2⟩ := hypb_next he hN ih.1
    refine ⟨h1, h2, (hypb_halve he hN ih.1 ih.2.1).trans ?_⟩
    rw [pow_succ, ← div_div]
    linarith [ih.2.2]

theorem hypb_halve_abs {N e : ℝ} (he : 1 < e) {x : ℝ} (hside : 0 ≤ x ∧ 0 ≤ N ∨ x ≤ 0 ∧ N ≤ 0) (k : ℕ) :
    |kepler_equ_hypb ((newtonHypb N e)^[k + 1] x) e N| ≤ |kepler_equ_hypb (newtonHypb N e x) e N| / 2 ^ k := by
  have key : ∀ N x : ℝ, 0 ≤ x → 0 ≤ N →
      |kepler_equ_hypb ((newtonHypb N e)^[k + 1] x) e N| ≤ |kepler_equ_hypb (newtonHypb N e x) e N| / 2 ^ k := by
    intro N x hx hN
    obtain ⟨-, h1, h2⟩ := hypb_halve_iter he hN hx k
    rw [abs_of_nonneg h1, abs_of_nonneg (hypb_next he hN hx).2]
    exact h2
  rcases hside with h | h
  · exact key N x h.1 h.2
  · have h2 := key (-N) (-x) (by linarith) (by linarith)
    have e0 := hypb_iter_neg N e x 1
    simp only [Function.iterate_one] at e0
    have hodd : ∀ y, kepler_equ_hypb (-y) e (-N) = -kepler_equ_hypb y e N := fun y => by
      rw [kep_hypb_eq, kep_hypb_eq, Real.sinh_neg]; ring
    rwa [hypb_iter_neg, e0, hodd, hodd, abs_neg, abs_neg] at h2

section
variable {r v : V3 ℝ} {mu : ℝ}

/-- C58, every eccentricity: if the hyperbolic anomaly of the `j`-th iterate of `solve_kepler_uni` is on the side of
periapsis of the final state, then the residual of the next iterate is at least halved by every step that follows. -/
theorem C58_halving (hmu : 0 < mu) (hh : angular_momentum r v ≠ ⟨0, 0, 0⟩) (ha : aOf r v mu < 0) {H0 : ℝ}
    (hH0 : IsHyperbolic mu (aOf r v mu) (eOf r v mu) r v H0) {t : ℝ} {j : ℕ} {x : ℝ}
    (hxj : (newtonUni t (1 / aOf r v mu) (V3.norm r) (sigma_fn r v mu) mu)^[j] (uniStart t (1 / aOf r v mu) mu)
      = Real.sqrt (-aOf r v mu) * (x - H0))
    (hside : 0 ≤ x ∧ 0 ≤ meanHypb r v mu H0 t ∨ x ≤ 0 ∧ meanHypb r v mu H0 t ≤ 0) (k : ℕ) :
    |kepler_equ_uni ((newtonUni t (1 / aOf r v mu) (V3.norm r) (sigma_fn r v mu) mu)^[j + 1 + k]
        (uniStart t (1 / aOf r v mu) mu)) (1 / aOf r v mu) (V3.norm r) (sigma_fn r v mu) t mu|
      ≤ |kepler_equ_uni ((newtonUni t (1 / aOf r v mu) (V3.norm r) (sigma_fn r v mu) mu)^[j + 1]
        (uniStart t (1 / aOf r v mu) mu)) (1 / aOf r v mu) (V3.norm r) (sigma_fn r v mu) t mu| / 2 ^ k := by
  have he := one_lt_ecc hmu hh ha
  have hb : 0 < Real.sqrt (-aOf r v mu) := Real.sqrt_pos.2 (by linarith)
  rw [C58_hyperbolic_newton hmu ha hH0] at hxj
  have hx : (newtonHypb (meanHypb r v mu H0 t) (eOf r v mu))^[j] (H0 + mean_anomaly_hypb (aOf r v mu) t mu) = x := by
    have := mul_left_cancel₀ hb.ne' hxj
    linarith
  rw [C58_hyperbolic_newton hmu ha hH0, C58_hyperbolic_newton hmu ha hH0, (C53_hyperbolic_equation hmu ha hH0 t _).1,
    (C53_hyperbolic_equation hmu ha hH0 t _).1, ← meanHypb, show j + 1 + k = k + 1 + j by omega,
    show j + 1 = 1 + j by omega, Function.iterate_add_apply _ (k + 1) j, Function.iterate_add_apply _ 1 j, hx,
    Function.iterate_one, abs_mul, abs_mul, mul_div_assoc]
  exact mul_le_mul_of_nonneg_left (hypb_halve_abs he hside k) (abs_nonneg _)

/-- The first iterate on the way out, forward in time, at every eccentricity above 1. -/
theorem first_outbound_any {e H0 Δ : ℝ} (he : 1 < e) (hH : 0 ≤ H0) (hΔ : 0 ≤ Δ) (hx : 0 < H0 + Δ) :
    newtonHypb (e * Real.sinh H0 - H0 + Δ) e (H0 + Δ) ≤ H0 + Δ + 2 / (H0 + Δ) := by
  set x0 := H0 + Δ with hx0d
  have hpos := dH_pos' he x0
  have hc : 1 + x0 ^ 2 / 2 ≤ Real.cosh x0 := by
    have h1 := Real.cosh_two_mul (x0 / 2)
    rw [show 2 * (x0 / 2) = x0 by ring, Real.cosh_sq] at h1
    have h2 : x0 / 2 ≤ Real.sinh (x0 / 2) := Real.self_le_sinh_iff.2 (by linarith)
    nlinarith
  have h2 : x0 ^ 2 / 2 ≤ dH x0 e := by rw [dH_eq]; nlinarith [sq_nonneg x0]
  have : -(2 / x0) ≤ kepler_equ_hypb x0 e (e * Real.sinh H0 - H0 + Δ) / dH x0 e := by
    rw [le_div_iff₀ hpos]
    have h6 : x0 ≤ 2 / x0 * dH x0 e := by
      have := mul_le_mul_of_nonneg_left h2 (show 0 ≤ 2 / x0 by positivity)
      have h7 : 2 / x0 * (x0 ^ 2 / 2) = x0 := by field_simp
      linarith
    have ht := sinh_tangent hH hx.le
    have hc1 := Real.one_le_cosh H0
    have h1 : e * (Real.sinh H0 + (x0 - H0)) ≤ e * Real.sinh x0 := by
      refine mul_le_mul_of_nonneg_left (le_trans ?_ ht) (by linarith)
      nlinarith
    have h4 : (2 - e) * Δ ≤ x0 := by nlinarith
    rw [kep_hypb_eq]
    have h5 : x0 - H0 = Δ := by rw [hx0d]; ring
    rw [h5] at h1
    linarith
  rw [newtonHypb_eq, newton]
  linarith

/-- C58 on the way out, forward in time, at every eccentricity above 1: with `x = H0 + n t`, the default call meets its
tolerance as long as `√(-a)³ e sinh (x + 2/x)` is at most `5·10⁸`. Missing from the full claim: longer flights and larger
orbits (see `C58_outbound_wide_partial` for those with `e ≥ 1.01`). -/
theorem C58_every_eccentricity_partial (hmu : 0 < mu) (hh : angular_momentum r v ≠ ⟨0, 0, 0⟩) (ha : aOf r v mu < 0)
    {H0 : ℝ} (hH0 : IsHyperbolic mu (aOf r v mu) (eOf r v mu) r v H0) (hout : 0 ≤ H0) {t : ℝ} (ht : 0 ≤ t)
    (hpos : 0 < H0 + mean_anomaly_hypb (aOf r v mu) t mu)
    (hsize : Real.sqrt (-aOf r v mu) ^ 3 * (eOf r v mu * Real.sinh (H0 + mean_anomaly_hypb (aOf r v mu) t mu
      + 2 / (H0 + mean_anomaly_hypb (aOf r v mu) t mu))) ≤ 5 * 10 ^ 8) (max_iter : ℕ := 50) (hn : 50 ≤ max_iter) :
    ∃ χ, solve_kepler_uni t (1 / aOf r v mu) (V3.norm r) (sigma_fn r v mu) mu defaultTol max_iter = some χ ∧
      |kepler_equ_uni χ (1 / aOf r v mu) (V3.norm r) (sigma_fn r v mu) t mu| ≤ 1 / 1000000 := by
  have he := one_lt_ecc hmu hh ha
  have htol : (defaultTol : ℝ) = 1 / 1000000 := by norm_num [defaultTol]
  have hb : 0 < Real.sqrt (-aOf r v mu) := Real.sqrt_pos.2 (by linarith)
  have hΔ : 0 ≤ mean_anomaly_hypb (aOf r v mu) t mu := mul_nonneg (Real.sqrt_nonneg _) ht
  have hN : 0 ≤ meanHypb r v mu H0 t := by
    have : H0 ≤ Real.sinh H0 := Real.self_le_sinh_iff.2 hout
    rw [meanHypb]
    nlinarith
  obtain ⟨k, hk, -, hs, -, hstop⟩ := C13_uni t (1 / aOf r v mu) (V3.norm r) (sigma_fn r v mu) mu defaultTol max_iter
  refine ⟨_, hs, ?_⟩
  rcases hk.lt_or_eq with h | h
  · have := hstop h
    simp only [lt_real, abs_real, decide_eq_false_iff_not, not_lt, htol] at this
    exact this
  · rw [C58_hyperbolic_newton hmu ha hH0, (C53_hyperbolic_equation hmu ha hH0 t _).1, ← meanHypb]
    obtain ⟨m, rfl⟩ : ∃ m, k = m + 1 := ⟨k - 1, by omega⟩
    have hfirst := first_outbound_any he hout hΔ hpos
    rw [← meanHypb] at hfirst
    obtain ⟨-, h1, h2⟩ := hypb_halve_iter he hN hpos.le m
    obtain ⟨g1, -⟩ := hypb_next he hN hpos.le
    rw [abs_mul, abs_of_pos (by positivity), abs_of_nonneg h1]
    generalize H0 + mean_anomaly_hypb (aOf r v mu) t mu = x0 at *
    have h3 : kepler_equ_hypb (newtonHypb (meanHypb r v mu H0 t) (eOf r v mu) x0) (eOf r v mu) (meanHypb r v mu H0 t)
        ≤ eOf r v mu * Real.sinh (x0 + 2 / x0) := by
      have h4 := mul_le_mul_of_nonneg_left (Real.sinh_le_sinh.2 hfirst) (show 0 ≤ eOf r v mu by linarith)
      rw [kep_hypb_eq]
      linarith
    have h5 : (2 : ℝ) ^ 49 ≤ 2 ^ m := pow_le_pow_right₀ (by norm_num) (by omega)
    have h6 := mul_le_mul_of_nonneg_left (h2.trans (div_le_div_of_nonneg_right h3 (by positivity)))
      (show 0 ≤ Real.sqrt (-aOf r v mu) ^ 3 by positivity)
    refine h6.trans ?_
    rw [← mul_div_assoc, div_le_iff₀ (by positivity)]
    norm_num at h5 ⊢
    linarith

/-- The same for `kepler`. -/
theorem C58_kepler_every_eccentricity_partial (hmu : 0 < mu) (hh : angular_momentum r v ≠ ⟨0, 0, 0⟩)
    (ha : aOf r v mu < 0) {H0 : ℝ} (hH0 : IsHyperbolic mu (aOf r v mu) (eOf r v mu) r v H0) (hout : 0 ≤ H0)
    {ts : List ℝ} (hts : ∀ t ∈ ts, 0 ≤ t ∧ 0 < H0 + mean_anomaly_hypb (aOf r v mu) t mu ∧
      Real.sqrt (-aOf r v mu) ^ 3 * (eOf r v mu * Real.sinh (H0 + mean_anomaly_hypb (aOf r v mu) t mu
        + 2 / (H0 + mean_anomaly_hypb (aOf r v mu) t mu))) ≤ 5 * 10 ^ 8)
    {rs vs : List (V3 ℝ)} (hk : kepler ts r v mu = some (rs, vs)) {i : ℕ} {r' v' : V3 ℝ}
    (hr' : rs[i]? = some r') (hv' : vs[i]? = some v') :
    ∃ t t', ts[i]? = some t ∧ |t' - t| ≤ 1 / 1000000 / Real.sqrt mu ∧ (r', v') = exactProp r v mu t' := by
  obtain ⟨t, χ, t', h1, h2, h3, h4, -⟩ := C23_exact_up_to_time hmu hh hk hr' hv'
  obtain ⟨q1, q2, q3⟩ := hts t (List.mem_of_getElem? h1)
  obtain ⟨χ', h5, h6⟩ := C58_every_eccentricity_partial hmu hh ha hH0 hout q1 q2 q3 50 le_rfl
  have h7 : solve_kepler_uni t (alphaOf r v mu) (V3.norm r) (sigma_fn r v mu) mu defaultTol 50 = some χ' := h5
  obtain rfl : χ' = χ := Option.some.inj (h7.symm.trans h2)
  refine ⟨t, t', h1, ?_, h4⟩
  rw [h3, add_sub_cancel_left, abs_div, abs_of_pos (Real.sqrt_pos.2 hmu)]
  exact div_le_div_of_nonneg_right h6 (Real.sqrt_nonneg _)

end

/-- A hyperbola of eccentricity `1.00001` (below every range of `Props/C58b`), from hyperbolic anomaly 1, for the time 1. -/
example : ∃ r' v' t', kepler [1] (hypR (100001 / 100000) 1) (hypV (100001 / 100000) 1) 1 = some ([r'], [v']) ∧
    |t' - 1| ≤ 1 / 1000000 ∧ (r', v') = exactProp (hypR (100001 / 100000) 1) (hypV (100001 / 100000) 1) 1 t' := by
  obtain ⟨h1, h2, h3, h4⟩ := hyp_state (by norm_num : (1 : ℝ) < 100001 / 100000) 1
  have hk := kepler_eq_map [1] (hypR (100001 / 100000) 1) (hypV (100001 / 100000) 1) 1
  simp only [List.map_cons, List.map_nil] at hk
  obtain ⟨t, t', q1, q2, q3⟩ := C58_kepler_every_eccentricity_partial (i := 0) one_pos h1 (by rw [h2]; norm_num)
    (by rw [h2, h3]; exact h4) zero_le_one (by
      intro t ht
      simp only [List.mem_singleton] at ht
      subst ht
      rw [h2, h3, mean_hypb_unit]
      refine ⟨zero_le_one, by norm_num, ?_⟩
      have hE : Real.exp 3 ≤ 21 := by
        rw [show (3 : ℝ) = (3 : ℕ) * 1 by norm_num, Real.exp_nat_mul]
        exact (pow_le_pow_left₀ (Real.exp_pos 1).le Real.exp_one_lt_d9.le 3).trans (by norm_num)
      have hs : Real.sinh 3 ≤ 21 := by rw [Real.sinh_eq]; linarith [Real.exp_pos (-3), Real.exp_pos 3]
      norm_num
      linarith) hk rfl rfl
  simp only [List.getElem?_cons_zero, Option.some.injEq] at q1
  subst q1
  rw [Real.sqrt_one, div_one] at q2
  exact ⟨_, _, t', hk, q2, q3⟩

end Adx
