import Verif.Props.C18d
import Verif.Props.C53

/-! # C58: convergence of `kepler`'s root search on hyperbolas

On a hyperbola `solve_kepler_uni` is Newton's method for the hyperbolic Kepler equation in disguise. Its starting
value is the hyperbolic anomaly `H0` of the initial state plus the mean anomaly `n t`; the solution grows only like
`log (n t)`, and each Newton step from far right moves back by at most a little more than 1. -/

namespace Adx
open Set Spec

variable {r v : V3 ℝ} {mu : ℝ}

/-- The mean anomaly at time `t` of a state with hyperbolic anomaly `H0`. -/
noncomputable def meanHypb (r v : V3 ℝ) (mu H0 t : ℝ) : ℝ :=
  eOf r v mu * Real.sinh H0 - H0 + mean_anomaly_hypb (aOf r v mu) t mu

/-- C58: the starting value and every Newton step of `solve_kepler_uni` on a hyperbola are those of Newton's
method for `kepler_equ_hypb`, started at `H0 + n t`. -/
theorem C58_hyperbolic_newton (hmu : 0 < mu) (ha : aOf r v mu < 0) {H0 : ℝ}
    (hH0 : IsHyperbolic mu (aOf r v mu) (eOf r v mu) r v H0) (t : ℝ) (k : ℕ) :
    (newtonUni t (1 / aOf r v mu) (V3.norm r) (sigma_fn r v mu) mu)^[k] (uniStart t (1 / aOf r v mu) mu)
      = Real.sqrt (-aOf r v mu) * ((newtonHypb (meanHypb r v mu H0 t) (eOf r v mu))^[k]
          (H0 + mean_anomaly_hypb (aOf r v mu) t mu) - H0) := by
  have hna : 0 < -aOf r v mu := by linarith
  have hb : 0 < Real.sqrt (-aOf r v mu) := Real.sqrt_pos.2 hna
  have h4 : -aOf r v mu = Real.sqrt (-aOf r v mu) ^ 2 := (Real.sq_sqrt hna.le).symm
  induction k with
  | zero =>
    have h3 : mu / -(aOf r v mu ^ 3) = mu / (Real.sqrt (-aOf r v mu) ^ 3) ^ 2 := by
      rw [← pow_mul, show 3 * 2 = 2 * 3 by norm_num, pow_mul, Real.sq_sqrt hna.le]; ring
    simp only [Function.iterate_zero, id_eq, uniStart, sqrt_real, abs_real, mean_anomaly_hypb]
    rw [abs_of_neg (one_div_neg.2 ha), h3, Real.sqrt_div hmu.le, Real.sqrt_sq (by positivity)]
    rw [show -((1 : ℝ) / aOf r v mu) = 1 / Real.sqrt (-aOf r v mu) ^ 2 by rw [← h4, one_div_neg_eq_neg_one_div]]
    field_simp
    ring
  | succ k ih =>
    rw [Function.iterate_succ_apply', Function.iterate_succ_apply', ih]
    set H := (newtonHypb (meanHypb r v mu H0 t) (eOf r v mu))^[k] (H0 + mean_anomaly_hypb (aOf r v mu) t mu)
    obtain ⟨h1, h2⟩ := C53_hyperbolic_equation hmu ha hH0 t H
    rw [newtonUni, h1, h2, newtonHypb, ← meanHypb]
    rw [show Real.sqrt (-aOf r v mu) ^ 3 * kepler_equ_hypb H (eOf r v mu) (meanHypb r v mu H0 t)
        / (-aOf r v mu * dH H (eOf r v mu))
        = Real.sqrt (-aOf r v mu) * (kepler_equ_hypb H (eOf r v mu) (meanHypb r v mu H0 t) / dH H (eOf r v mu)) by
      rw [show -aOf r v mu * dH H (eOf r v mu) = Real.sqrt (-aOf r v mu) ^ 2 * dH H (eOf r v mu) by rw [← h4]]
      rw [show Real.sqrt (-aOf r v mu) ^ 3 * kepler_equ_hypb H (eOf r v mu) (meanHypb r v mu H0 t)
        = Real.sqrt (-aOf r v mu) ^ 2 * (Real.sqrt (-aOf r v mu) *
          kepler_equ_hypb H (eOf r v mu) (meanHypb r v mu H0 t)) by ring,
        mul_div_mul_left _ _ (pow_ne_zero 2 hb.ne'), mul_div_assoc]]
    ring

/-! ### where the default settings do not work -/

theorem sinh_ge_linear {x : ℝ} (hx : 9.9 ≤ x) : 800 * x ≤ Real.sinh x ∧ 3600 ≤ Real.cosh x := by
  have hE : (16000 : ℝ) ≤ Real.exp 9.9 := exp_ge_of_pow (p := 99) (q := 10) (by norm_num) (by norm_num) (by norm_num)
  have hm : Real.exp (-9.9 : ℝ) ≤ 1 := Real.exp_le_one_iff.2 (by norm_num)
  have hs : (7920 : ℝ) ≤ Real.sinh 9.9 := by rw [Real.sinh_eq]; linarith
  have hc : (3600 : ℝ) ≤ Real.cosh 9.9 := by rw [Real.cosh_eq]; linarith [Real.exp_pos (-9.9 : ℝ)]
  have ht := sinh_tangent (by norm_num : (0 : ℝ) ≤ 9.9) (by linarith : 0 ≤ x)
  refine ⟨by nlinarith, hc.trans ?_⟩
  rw [Real.cosh_le_cosh, abs_of_nonneg (by norm_num), abs_of_nonneg (by linarith)]
  exact hx

/-- A Newton step far right of the root. -/
theorem hypb_slow {N e x : ℝ} (he : 1 ≤ e) (hN : 0 ≤ N) (hx : 9.9 ≤ x) : x - 1001 / 1000 ≤ newtonHypb N e x := by
  obtain ⟨-, hc⟩ := sinh_ge_linear hx
  have hpos : 1001 ≤ dH x e := by rw [dH_eq]; nlinarith
  have : kepler_equ_hypb x e N / dH x e ≤ 1001 / 1000 := by
    rw [div_le_iff₀ (by linarith), kep_hypb_eq]
    rw [dH_eq] at hpos ⊢
    have := mul_le_mul_of_nonneg_left (Real.sinh_lt_cosh x).le (by linarith : 0 ≤ e)
    linarith
  rw [newtonHypb_eq, newton]
  linarith

/-- Fifty Newton steps from beyond 60 end beyond 9.9. -/
theorem hypb_slow_iter {N e x : ℝ} (he : 1 ≤ e) (hN : 0 ≤ N) (hx : 60 ≤ x) (k : ℕ) (hk : k ≤ 50) :
    x - k * (1001 / 1000) ≤ (newtonHypb N e)^[k] x := by
  induction k with
  | zero => simp
  | succ k ih =>
    have ih' := ih (by omega)
    have hk' : (k : ℝ) ≤ 49 := by exact_mod_cast (by omega : k ≤ 49)
    rw [Function.iterate_succ_apply']
    have := hypb_slow he hN (x := (newtonHypb N e)^[k] x) (by linarith)
    push_cast
    linarith

/-- The residual there. -/
theorem hypb_slow_residual {N e x : ℝ} (he : 1 ≤ e) (hN : 0 ≤ N) (hx : 60 ≤ x) (hNx : N ≤ x) (k : ℕ) (hk : k ≤ 50) :
    100 * x ≤ kepler_equ_hypb ((newtonHypb N e)^[k] x) e N := by
  have h := hypb_slow_iter he hN hx k hk
  have hk' : (k : ℝ) ≤ 50 := by exact_mod_cast hk
  set y := (newtonHypb N e)^[k] x
  have hy : 9.9 ≤ y := by linarith
  obtain ⟨hs, -⟩ := sinh_ge_linear hy
  have hs0 : 0 ≤ Real.sinh y := by linarith
  rw [kep_hypb_eq]
  nlinarith

theorem hypb_time (hmu : 0 < mu) (ha : aOf r v mu < 0) (t : ℝ) :
    t * Real.sqrt mu = Real.sqrt (-aOf r v mu) ^ 3 * mean_anomaly_hypb (aOf r v mu) t mu := by
  have hna : 0 < -aOf r v mu := by linarith
  have hb : 0 < Real.sqrt (-aOf r v mu) := Real.sqrt_pos.2 hna
  have h3 : mu / -(aOf r v mu ^ 3) = mu / (Real.sqrt (-aOf r v mu) ^ 3) ^ 2 := by
    rw [← pow_mul, show 3 * 2 = 2 * 3 by norm_num, pow_mul, Real.sq_sqrt hna.le]; ring
  rw [mean_anomaly_hypb, sqrt_real, h3, Real.sqrt_div hmu.le, Real.sqrt_sq (by positivity)]
  field_simp

theorem one_lt_ecc (hmu : 0 < mu) (hh : angular_momentum r v ≠ ⟨0, 0, 0⟩) (ha : aOf r v mu < 0) : 1 < eOf r v mu := by
  have h2 := pOf_alpha hmu hh
  have hp := pOf_pos hh hmu
  have hα : alphaOf r v mu < 0 := by
    have : alphaOf r v mu = 1 / aOf r v mu := rfl
    rw [this]; exact one_div_neg.2 ha
  have he0 : 0 ≤ eOf r v mu := V3.norm_nonneg _
  nlinarith

/-- The single row returned by `kepler` for one time of flight on a hyperbola: the exact state at a time that
is off by the residual after some number `k ≤ 50` of Newton steps. -/
theorem hypb_kepler_row (hmu : 0 < mu) (hh : angular_momentum r v ≠ ⟨0, 0, 0⟩) (ha : aOf r v mu < 0) {H0 : ℝ}
    (hH0 : IsHyperbolic mu (aOf r v mu) (eOf r v mu) r v H0) (t : ℝ) :
    ∃ r' v' t' k, kepler [t] r v mu = some ([r'], [v']) ∧ (r', v') = exactProp r v mu t' ∧ k ≤ 50 ∧
      (t' - t) * Real.sqrt mu = Real.sqrt (-aOf r v mu) ^ 3 *
        kepler_equ_hypb ((newtonHypb (meanHypb r v mu H0 t) (eOf r v mu))^[k]
          (H0 + mean_anomaly_hypb (aOf r v mu) t mu)) (eOf r v mu) (meanHypb r v mu H0 t) := by
  obtain ⟨⟨rs, vs⟩, hk⟩ : ∃ p, kepler [t] r v mu = some p := ⟨_, kepler_eq_map ..⟩
  have hlen : rs.length = 1 ∧ vs.length = 1 := by
    rw [kepler_eq_map] at hk
    obtain ⟨rfl, rfl⟩ := Prod.mk.inj (Option.some.inj hk)
    simp
  obtain ⟨r', rfl⟩ := List.length_eq_one_iff.1 hlen.1
  obtain ⟨v', rfl⟩ := List.length_eq_one_iff.1 hlen.2
  obtain ⟨t1, χ, t', h1, h2, h3, h4, -⟩ := C23_exact_up_to_time (r := r) (v := v) hmu hh hk
    (i := 0) (r' := r') (v' := v') rfl rfl
  obtain rfl : t = t1 := by simpa using h1
  obtain ⟨k, hk', -, hs, -, -⟩ := C13_uni t (1 / aOf r v mu) (V3.norm r) (sigma_fn r v mu) mu defaultTol 50
  refine ⟨r', v', t', k, hk, h4, hk', ?_⟩
  have h5 : solve_kepler_uni t (alphaOf r v mu) (V3.norm r) (sigma_fn r v mu) mu defaultTol 50 = _ := hs
  have h6 := Option.some.inj (h5.symm.trans h2)
  have hsq : Real.sqrt mu ≠ 0 := (Real.sqrt_pos.2 hmu).ne'
  rw [h3, add_sub_cancel_left, div_mul_cancel₀ _ hsq, ← h6, C58_hyperbolic_newton hmu ha hH0]
  exact (C53_hyperbolic_equation hmu ha hH0 t _).1

/-- C58 is false: from the periapsis of *any* hyperbola, once the mean anomaly `n t` exceeds 60, `kepler` with its
default settings silently returns the state of more than a hundred times the requested time of flight. -/
theorem C58_periapsis_refuted (hmu : 0 < mu) (hh : angular_momentum r v ≠ ⟨0, 0, 0⟩) (ha : aOf r v mu < 0)
    (hσ : sigma_fn r v mu = 0) {t : ℝ} (ht : 60 ≤ mean_anomaly_hypb (aOf r v mu) t mu) :
    ∃ r' v' t', kepler [t] r v mu = some ([r'], [v']) ∧ (r', v') = exactProp r v mu t' ∧ 100 * t ≤ t' := by
  have he := one_lt_ecc hmu hh ha
  have hb : 0 < Real.sqrt (-aOf r v mu) := Real.sqrt_pos.2 (by linarith)
  obtain ⟨H0, hH0, -⟩ := C53_hyperbolic_existsUnique hmu hh ha
  have hz : H0 = 0 := by
    have := ((isHyperbolic_iff hmu ha).1 hH0).2
    rw [hσ] at this
    rcases mul_eq_zero.1 this.symm with h | h
    · exact absurd h hb.ne'
    · rcases mul_eq_zero.1 h with h | h
      · linarith
      · exact Real.sinh_eq_zero.1 h
  subst hz
  obtain ⟨r', v', t', k, h1, h2, h3, h4⟩ := hypb_kepler_row hmu hh ha hH0 t
  refine ⟨r', v', t', h1, h2, ?_⟩
  have hN : meanHypb r v mu 0 t = mean_anomaly_hypb (aOf r v mu) t mu := by simp [meanHypb]
  rw [hN, zero_add] at h4
  set N := mean_anomaly_hypb (aOf r v mu) t mu with hNd
  have h5 := hypb_slow_residual he.le (by linarith : 0 ≤ N) ht le_rfl k h3
  have h6 := hypb_time hmu ha t
  have hs : 0 < Real.sqrt mu := Real.sqrt_pos.2 hmu
  have h7 : Real.sqrt (-aOf r v mu) ^ 3 * (100 * N) ≤ (t' - t) * Real.sqrt mu := by
    rw [h4]; exact mul_le_mul_of_nonneg_left h5 (by positivity)
  have h8 : (100 * t) * Real.sqrt mu ≤ (t' - t) * Real.sqrt mu := by
    rw [← hNd] at h6
    calc (100 * t) * Real.sqrt mu = 100 * (t * Real.sqrt mu) := by ring
      _ = Real.sqrt (-aOf r v mu) ^ 3 * (100 * N) := by rw [h6]; ring
      _ ≤ _ := h7
  have h9 := le_of_mul_le_mul_right h8 hs
  have ht0 : 0 ≤ t := by
    by_contra hneg
    push Not at hneg
    have : t * Real.sqrt mu < 0 := mul_neg_of_neg_of_pos hneg hs
    rw [h6, ← hNd] at this
    have : 0 ≤ Real.sqrt (-aOf r v mu) ^ 3 * N := mul_nonneg (by positivity) (by linarith)
    linarith
  linarith

/-- Symmetry of the iteration. -/
theorem hypb_iter_neg (N e x : ℝ) (k : ℕ) : (newtonHypb (-N) e)^[k] (-x) = -(newtonHypb N e)^[k] x := by
  induction k with
  | zero => rfl
  | succ k ih =>
    rw [Function.iterate_succ_apply', Function.iterate_succ_apply', ih, newtonHypb, newtonHypb]
    have : kepler_equ_hypb (-(newtonHypb N e)^[k] x) e (-N) = -kepler_equ_hypb ((newtonHypb N e)^[k] x) e N := by
      rw [kep_hypb_eq, kep_hypb_eq, Real.sinh_neg]; ring
    rw [this, dH_eq, dH_eq, Real.cosh_neg]
    ring

/-- C58 is false also for short times on the way in: from a state with hyperbolic anomaly `-h` the time of flight
`t` with `n t = h` puts the starting value at `0`, from where the first Newton step overshoots by
`(e sinh h - 2h)/(e - 1)`. If that is at least 60 the returned state is wrong by more than `1/n`. -/
theorem C58_inbound_refuted (hmu : 0 < mu) (hh : angular_momentum r v ≠ ⟨0, 0, 0⟩) (ha : aOf r v mu < 0)
    {h : ℝ} (hH : IsHyperbolic mu (aOf r v mu) (eOf r v mu) r v (-h)) {t : ℝ}
    (ht : mean_anomaly_hypb (aOf r v mu) t mu = h) (he2 : eOf r v mu ≤ 2)
    (hP : 1 ≤ eOf r v mu * Real.sinh h - 2 * h) (hP' : 60 * (eOf r v mu - 1) ≤ eOf r v mu * Real.sinh h - 2 * h) :
    ∃ r' v' t', kepler [t] r v mu = some ([r'], [v']) ∧ (r', v') = exactProp r v mu t' ∧
      1 ≤ mean_anomaly_hypb (aOf r v mu) |t' - t| mu := by
  have he := one_lt_ecc hmu hh ha
  have hb : 0 < Real.sqrt (-aOf r v mu) := Real.sqrt_pos.2 (by linarith)
  obtain ⟨r', v', t', k, h1, h2, h3, h4⟩ := hypb_kepler_row hmu hh ha hH t
  refine ⟨r', v', t', h1, h2, ?_⟩
  set e := eOf r v mu with hed
  set P := e * Real.sinh h - 2 * h with hPd
  have hN : meanHypb r v mu (-h) t = -P := by rw [meanHypb, ht, Real.sinh_neg, hPd]; ring
  rw [hN, ht, neg_add_cancel] at h4
  have hneg : kepler_equ_hypb ((newtonHypb (-P) e)^[k] 0) e (-P) = -kepler_equ_hypb ((newtonHypb P e)^[k] 0) e P := by
    have := hypb_iter_neg P e 0 k
    rw [neg_zero] at this
    rw [this, kep_hypb_eq, kep_hypb_eq, Real.sinh_neg]; ring
  rw [hneg] at h4
  have hres : 1 ≤ |kepler_equ_hypb ((newtonHypb P e)^[k] 0) e P| := by
    rcases k with _ | k
    · simp only [Function.iterate_zero, id_eq, kep_hypb_eq, Real.sinh_zero, mul_zero]
      rw [show (0 : ℝ) - 0 - P = -P by ring, abs_neg]
      exact hP.trans (le_abs_self P)
    · have hx1 : newtonHypb P e 0 = P / (e - 1) := by
        rw [newtonHypb, kep_hypb_eq, dH_eq, Real.sinh_zero, Real.cosh_zero]; ring
      rw [Function.iterate_succ_apply, hx1]
      have hx60 : 60 ≤ P / (e - 1) := by rw [le_div_iff₀ (by linarith)]; exact hP'
      have hPx : P ≤ P / (e - 1) := by rw [le_div_iff₀ (by linarith)]; nlinarith
      have := hypb_slow_residual he.le (by linarith : 0 ≤ P) hx60 hPx k (by omega)
      rw [abs_of_nonneg (by linarith)]
      linarith
  have hs : 0 < Real.sqrt mu := Real.sqrt_pos.2 hmu
  have h6 := hypb_time hmu ha (r := r) (v := v) |t' - t|
  have h7 : |t' - t| * Real.sqrt mu = Real.sqrt (-aOf r v mu) ^ 3 * |kepler_equ_hypb ((newtonHypb P e)^[k] 0) e P| := by
    have h8 := congrArg abs h4
    rwa [abs_mul, abs_of_pos hs, abs_mul, abs_neg, abs_of_pos (by positivity : 0 < Real.sqrt (-aOf r v mu) ^ 3)] at h8
  rw [h6] at h7
  rw [mul_left_cancel₀ (by positivity) h7]
  exact hres

/-! ### where they work -/

section
variable {N e a : ℝ} (he : 11 / 10 ≤ e) (hroot : kepler_equ_hypb a e N = 0) (ha : 0 ≤ a)
include he hroot ha

theorem hypb_quad' {x : ℝ} (hx : a ≤ x) : newtonHypb N e x - a ≤ 5 / 4 * (x - a) ^ 2 := by
  have hq := newton_quad (f := fun H => kepler_equ_hypb H e N) (f' := fun H => dH H e) (f'' := fun s => e * Real.sinh s)
    (C := 5 / 2) (fun s => hasDerivAt_hypb s e N) (hasDerivAt_dH e) hx hroot (dH_pos' (by linarith) x) (fun s hs => ?_)
  · rw [newtonHypb_eq]; linarith
  · have h1 : e * Real.sinh s ≤ e * Real.sinh x := mul_le_mul_of_nonneg_left (Real.sinh_le_sinh.2 hs.2) (by linarith)
    refine h1.trans ?_
    rw [dH_eq]
    have hcs := Real.cosh_sq x
    have hc1 := Real.one_le_cosh x
    have hpos : 0 ≤ 5 * Real.cosh x - 2 * Real.sinh x := by linarith [Real.sinh_lt_cosh x]
    have h2 : 21 ≤ (5 * Real.cosh x - 2 * Real.sinh x) ^ 2 := by nlinarith [sq_nonneg (2 * Real.cosh x - 5 * Real.sinh x)]
    have h3 : 5 ^ 2 ≤ (e * (5 * Real.cosh x - 2 * Real.sinh x)) ^ 2 := by
      rw [mul_pow]
      have : (11 / 10) ^ 2 ≤ e ^ 2 := pow_le_pow_left₀ (by norm_num) he 2
      nlinarith
    have := abs_le_of_sq_le_sq' h3 (mul_nonneg (by linarith) hpos)
    linarith [this.2]

/-- The residual at a distance from the root. -/
theorem hypb_far {x δ : ℝ} (hδ : 0 ≤ δ) (hx : a ≤ x - δ) :
    e * Real.sinh x * (1 - Real.exp (-δ)) - δ ≤ kepler_equ_hypb x e N := by
  have h1 := (hypb_resid_nonneg (by linarith) hroot ha hx).1
  have h2 : Real.sinh (x - δ) ≤ Real.exp (-δ) * Real.sinh x := by
    have hm : Real.exp (-δ) = Real.cosh δ - Real.sinh δ := by rw [Real.cosh_sub_sinh]
    rw [Real.sinh_sub, hm]
    have h5 : Real.sinh x ≤ Real.cosh x := (Real.sinh_lt_cosh _).le
    have h6 : 0 ≤ Real.sinh δ := Real.sinh_nonneg_iff.2 hδ
    nlinarith
  have h3 := mul_le_mul_of_nonneg_left h2 (by linarith : 0 ≤ e)
  rw [kep_hypb_eq] at h1 ⊢
  linarith

theorem hypb_far_step {x δ d : ℝ} (hδ : 0 ≤ δ) (hx : a ≤ x - δ)
    (h : d * (e * Real.cosh x - 1) ≤ e * Real.sinh x * (1 - Real.exp (-δ)) - δ) : newtonHypb N e x ≤ x - d := by
  have hpos := dH_pos' (by linarith : 1 < e) x
  have : d ≤ kepler_equ_hypb x e N / dH x e := by
    rw [le_div_iff₀ hpos, dH_eq]
    exact h.trans (hypb_far he hroot ha hδ hx)
  rw [newtonHypb_eq, newton]
  linarith

theorem hypb_far_two {x : ℝ} (hx4 : 4 ≤ x) (hx : a + 2 ≤ x) : newtonHypb N e x ≤ x - 4 / 5 := by
  refine hypb_far_step he hroot ha (δ := 2) (by norm_num) (by linarith) ?_
  have e2 : (7.38 : ℝ) ≤ Real.exp 2 := exp_ge_of_pow (p := 2) (q := 1) (by norm_num) (by norm_num) (by norm_num)
  have e4 : (54 : ℝ) ≤ Real.exp 4 := exp_ge_of_pow (p := 4) (q := 1) (by norm_num) (by norm_num) (by norm_num)
  have hm2 : Real.exp (-2 : ℝ) ≤ 0.136 := by
    have : Real.exp (-2 : ℝ) * Real.exp 2 = 1 := by rw [← Real.exp_add]; norm_num
    nlinarith [Real.exp_pos (-2 : ℝ)]
  have hx4' : Real.exp 4 ≤ Real.exp x := Real.exp_le_exp.2 hx4
  have hmx : Real.exp (-x) ≤ 0.02 := by
    have : Real.exp (-x) * Real.exp x = 1 := by rw [← Real.exp_add]; simp
    nlinarith [Real.exp_pos (-x)]
  have hc : (27 : ℝ) ≤ Real.cosh x := by rw [Real.cosh_eq]; linarith [Real.exp_pos (-x)]
  have hs : Real.cosh x - 0.02 ≤ Real.sinh x := by rw [Real.cosh_eq, Real.sinh_eq]; linarith
  have h1 : e * (Real.cosh x - 0.02) * 0.864 ≤ e * Real.sinh x * (1 - Real.exp (-2)) :=
    mul_le_mul (mul_le_mul_of_nonneg_left hs (by linarith)) (by linarith) (by norm_num)
      (mul_nonneg (by linarith) (by linarith))
  nlinarith

theorem hypb_far_log {x : ℝ} (hx3 : 2.9 ≤ x) (hx : a + Real.log 2 ≤ x) : newtonHypb N e x ≤ x - 2 / 5 := by
  have hl := Real.log_two_lt_d9
  refine hypb_far_step he hroot ha (δ := Real.log 2) (Real.log_nonneg (by norm_num)) (by linarith) ?_
  rw [Real.exp_neg, Real.exp_log (by norm_num)]
  have e29 : (18 : ℝ) ≤ Real.exp 2.9 := exp_ge_of_pow (p := 29) (q := 10) (by norm_num) (by norm_num) (by norm_num)
  have hx4' : Real.exp 2.9 ≤ Real.exp x := Real.exp_le_exp.2 hx3
  have hmx : Real.exp (-x) ≤ 0.06 := by
    have : Real.exp (-x) * Real.exp x = 1 := by rw [← Real.exp_add]; simp
    nlinarith [Real.exp_pos (-x)]
  have hc : (9 : ℝ) ≤ Real.cosh x := by rw [Real.cosh_eq]; linarith [Real.exp_pos (-x)]
  have hs : Real.cosh x - 0.06 ≤ Real.sinh x := by rw [Real.cosh_eq, Real.sinh_eq]; linarith
  have h1 : e * (Real.cosh x - 0.06) ≤ e * Real.sinh x := mul_le_mul_of_nonneg_left hs (by linarith)
  nlinarith

end

/-- Residuals of the iterates from `H0 + Δ`, outbound and forward. -/
theorem outbound_residual {e H0 Δ : ℝ} (he : 11 / 10 ≤ e) (hH : 0 ≤ H0) (hΔ : 0 ≤ Δ) (hB : H0 + Δ ≤ 20) (m : ℕ) :
    |kepler_equ_hypb ((newtonHypb (e * Real.sinh H0 - H0 + Δ) e)^[37 + m + 1] (H0 + Δ)) e (e * Real.sinh H0 - H0 + Δ)|
      ≤ e * (10 ^ 10 * (1 / 2) ^ 2 ^ m) := by
  set N := e * Real.sinh H0 - H0 + Δ with hNd
  set x0 := H0 + Δ with hx0d
  have he' : 2001 / 2000 ≤ e := by linarith
  have hx0 : 0 ≤ x0 := by linarith
  have hN : 0 ≤ N := by
    have : H0 ≤ Real.sinh H0 := Real.self_le_sinh_iff.2 hH
    nlinarith
  obtain ⟨a, hroot, ha⟩ := hypb_root (one_lt_of he') hN
  -- the first step
  have hfirst : newtonHypb N e x0 ≤ 22.1 := by
    have hpos := dH_pos' (one_lt_of he') x0
    have hc : 1 + x0 ^ 2 / 2 ≤ Real.cosh x0 := by
      have h1 := Real.cosh_two_mul (x0 / 2)
      rw [show 2 * (x0 / 2) = x0 by ring, Real.cosh_sq] at h1
      have h2 : x0 / 2 ≤ Real.sinh (x0 / 2) := Real.self_le_sinh_iff.2 (by linarith)
      nlinarith
    have : -(2.1 : ℝ) ≤ kepler_equ_hypb x0 e N / dH x0 e := by
      rw [le_div_iff₀ hpos, kep_hypb_eq, dH_eq]
      have ht := sinh_tangent hH hx0
      have hc1 := Real.one_le_cosh H0
      have h1 : e * (Real.sinh H0 + (x0 - H0)) ≤ e * Real.sinh x0 := by
        refine mul_le_mul_of_nonneg_left (le_trans ?_ ht) (by linarith)
        nlinarith
      have h2 : 0.1 + x0 ^ 2 / 2 ≤ e * Real.cosh x0 - 1 := by nlinarith [sq_nonneg x0]
      have h3 : 0.9 * x0 ≤ 2.1 * (0.1 + x0 ^ 2 / 2) := by nlinarith [sq_nonneg (x0 - 0.9 / 2.1)]
      have h4 : (2 - e) * Δ ≤ 0.9 * x0 := by nlinarith
      rw [hNd]
      have h5 : x0 - H0 = Δ := by rw [hx0d]; ring
      rw [h5] at h1
      linarith
    rw [newtonHypb_eq, newton]
    linarith
  set x : ℕ → ℝ := fun k => (newtonHypb N e)^[k + 1] x0 with hx
  have hstep : ∀ k, x (k + 1) = newtonHypb N e (x k) := fun k => by
    simp only [hx, Function.iterate_succ_apply']
  have hin : ∀ k, a ≤ x k := by
    intro k
    induction k with
    | zero => exact hypb_right (one_lt_of he') hroot ha hx0
    | succ k ih =>
      rw [hstep]
      exact hypb_right (one_lt_of he') hroot ha (ha.trans ih)
  have hdec : ∀ k, x (k + 1) ≤ x k := fun k => by
    rw [hstep]; exact hypb_decreases (one_lt_of he') hroot ha (hin k)
  have hanti : Antitone x := antitone_nat_of_succ_le hdec
  have hl := Real.log_two_lt_d9
  have hl' := Real.log_two_gt_d9
  have b1 : x (0 + 24) ≤ max 4 (a + 2) := below_after (n := 0) (m := 24) (g := newtonHypb N e) (d := 4 / 5) (B := 22.1)
    hstep hdec (fun y hy => hypb_far_two he hroot ha ((le_max_left _ _).trans hy) ((le_max_right _ _).trans hy))
    hfirst (le_trans (by norm_num) (le_max_left _ _)) (by norm_num)
  have b2 : x (24 + 4) ≤ max 2.9 (a + Real.log 2) := below_after (n := 24) (m := 4) (g := newtonHypb N e) (d := 2 / 5)
    (B := max 4 (a + 2)) hstep hdec
    (fun y hy => hypb_far_log he hroot ha ((le_max_left _ _).trans hy) ((le_max_right _ _).trans hy))
    b1 (by
      rw [sub_le_iff_le_add]
      refine max_le ?_ ?_
      · have := le_max_left (2.9 : ℝ) (a + Real.log 2)
        push_cast; linarith
      · have := le_max_right (2.9 : ℝ) (a + Real.log 2)
        push_cast; linarith) (by norm_num)
  have hb : ∀ k, x (28 + k) ≤ max 2.9 (a + Real.log 2) := fun k => (hanti (Nat.le_add_right 28 k)).trans b2
  have hd := decay (δ := fun k => x (28 + k) - a) (ρ := 4 / 5) (c := 5 / 4) (D := 2.9) (n := 9) (by norm_num)
    (by norm_num) (fun k => sub_nonneg.2 (hin _))
    (by
      have := hb 0
      have h2 : max 2.9 (a + Real.log 2) ≤ a + 2.9 := max_le (by linarith) (by linarith)
      linarith)
    (fun k => by
      rw [← add_assoc, hstep]
      refine hypb_lin (one_lt_of he') hroot ha (hin _) ?_
      rcases le_max_iff.1 (hb k) with h | h
      · exact Or.inl h
      · right
        rw [← Real.exp_log (by norm_num : (0 : ℝ) < 2)]
        exact Real.exp_le_exp.2 (by linarith))
    (fun k => by rw [← add_assoc, hstep]; exact hypb_quad' he hroot ha (hin _))
    (by norm_num) m
  rw [← add_assoc] at hd
  show |kepler_equ_hypb (x (37 + m)) e N| ≤ _
  obtain ⟨r0, r1⟩ := hypb_resid_nonneg (one_lt_of he') hroot ha (hin (37 + m))
  rw [abs_of_nonneg r0]
  have hd1 : x (37 + m) - a ≤ (1 / 2) ^ 2 ^ m := hd.trans (div_le_self (by positivity) (by norm_num))
  have hdH : dH (x (37 + m)) e ≤ e * 10 ^ 10 := by
    have h1 : x (37 + m) ≤ 22.1 := (hanti (Nat.zero_le _)).trans hfirst
    rw [dH_eq]
    have h2 : Real.cosh (x (37 + m)) ≤ 10 ^ 10 := by
      have h3 : Real.exp (x (37 + m)) ≤ Real.exp 1 ^ 23 := by
        rw [← Real.exp_nat_mul]; exact Real.exp_le_exp.2 (by push_cast; linarith)
      have h4 : Real.exp 1 ^ 23 ≤ 2.7182818286 ^ 23 := pow_le_pow_left₀ (Real.exp_pos 1).le Real.exp_one_lt_d9.le 23
      have h5 : Real.exp (x (37 + m)) ≤ 10 ^ 10 := h3.trans (h4.trans (by norm_num))
      have h6 : Real.exp (-x (37 + m)) ≤ 1 := Real.exp_le_one_iff.2 (by linarith [hin (37 + m)])
      rw [Real.cosh_eq]
      linarith
    have := mul_le_mul_of_nonneg_left h2 (by linarith : 0 ≤ e)
    linarith
  calc kepler_equ_hypb (x (37 + m)) e N ≤ dH (x (37 + m)) e * (x (37 + m) - a) := r1
    _ ≤ e * 10 ^ 10 * (1 / 2) ^ 2 ^ m := mul_le_mul hdH hd1 (sub_nonneg.2 (hin _)) (by positivity)
    _ = _ := by ring

/-- C58, the part that holds: on a hyperbola with `e ≥ 1.1`, outbound (`r·v ≥ 0`) and forward in time, as long as
the hyperbolic anomaly plus the elapsed mean anomaly is at most 20, the default call meets its tolerance.
Missing: larger times (false beyond 60 by `C58_periapsis_refuted`), the way in (`C58_inbound_refuted`), `e < 1.1`. -/
theorem C58_outbound_default_partial (hmu : 0 < mu)
    (ha : aOf r v mu < 0) (he : 11 / 10 ≤ eOf r v mu) {H0 : ℝ}
    (hH0 : IsHyperbolic mu (aOf r v mu) (eOf r v mu) r v H0) (hout : 0 ≤ H0)
    (hsize : Real.sqrt (-aOf r v mu) ^ 3 * eOf r v mu ≤ 10 ^ 300) {t : ℝ} (ht : 0 ≤ t)
    (hB : H0 + mean_anomaly_hypb (aOf r v mu) t mu ≤ 20) (max_iter : ℕ := 50) (hn : 49 ≤ max_iter) :
    ∃ χ, solve_kepler_uni t (1 / aOf r v mu) (V3.norm r) (sigma_fn r v mu) mu defaultTol max_iter = some χ ∧
      |kepler_equ_uni χ (1 / aOf r v mu) (V3.norm r) (sigma_fn r v mu) t mu| ≤ 1 / 1000000 := by
  have htol : (defaultTol : ℝ) = 1 / 1000000 := by norm_num [defaultTol]
  have hb : 0 < Real.sqrt (-aOf r v mu) := Real.sqrt_pos.2 (by linarith)
  obtain ⟨k, hk, -, hs, -, hstop⟩ := C13_uni t (1 / aOf r v mu) (V3.norm r) (sigma_fn r v mu) mu defaultTol max_iter
  refine ⟨_, hs, ?_⟩
  rcases hk.lt_or_eq with h | h
  · have := hstop h
    simp only [lt_real, abs_real, decide_eq_false_iff_not, not_lt, htol] at this
    exact this
  · rw [C58_hyperbolic_newton hmu ha hH0, (C53_hyperbolic_equation hmu ha hH0 t _).1, ← meanHypb]
    obtain ⟨n, rfl⟩ : ∃ n, k = 37 + n + 1 := ⟨k - 38, by omega⟩
    have hΔ : 0 ≤ mean_anomaly_hypb (aOf r v mu) t mu := mul_nonneg (Real.sqrt_nonneg _) ht
    have hres := outbound_residual he hout hΔ hB n
    rw [abs_mul, abs_of_pos (by positivity)]
    have hsmall : (10 ^ 10 * (1 / 2) ^ 2 ^ n : ℝ) ≤ (1 / 10) ^ 306 := by
      have h8 : (1 / 2 : ℝ) ^ 4 ≤ 1 / 10 := by norm_num
      have h9 : (1 / 2 : ℝ) ^ 2 ^ n ≤ (1 / 2) ^ (4 * (306 + 10)) := by
        refine pow_le_pow_of_le_one (by norm_num) (by norm_num) ?_
        calc 4 * (306 + 10) ≤ 2 ^ 11 := by norm_num
          _ ≤ 2 ^ n := Nat.pow_le_pow_right (by norm_num) (by omega)
      have h10 : (1 / 2 : ℝ) ^ (4 * (306 + 10)) ≤ (1 / 10) ^ (306 + 10) := by
        rw [pow_mul]; exact pow_le_pow_left₀ (by positivity) h8 _
      calc (10 ^ 10 * (1 / 2) ^ 2 ^ n : ℝ) ≤ 10 ^ 10 * (1 / 10) ^ (306 + 10) :=
            mul_le_mul_of_nonneg_left (h9.trans h10) (by positivity)
        _ = (1 / 10) ^ 306 * ((1 / 10) ^ 10 * 10 ^ 10) := by rw [pow_add]; ring
        _ = (1 / 10) ^ 306 := by rw [← mul_pow]; norm_num
    have he0 : 0 ≤ eOf r v mu := by linarith
    calc Real.sqrt (-aOf r v mu) ^ 3 * |kepler_equ_hypb _ _ _|
        ≤ Real.sqrt (-aOf r v mu) ^ 3 * (eOf r v mu * (1 / 10) ^ 306) :=
          mul_le_mul_of_nonneg_left (hres.trans (mul_le_mul_of_nonneg_left hsmall he0)) (by positivity)
      _ = (Real.sqrt (-aOf r v mu) ^ 3 * eOf r v mu) * (1 / 10) ^ 306 := by ring
      _ ≤ 10 ^ 300 * (1 / 10) ^ 306 := mul_le_mul_of_nonneg_right hsize (by positivity)
      _ = 1 / 1000000 := by
          rw [show (306 : ℕ) = 300 + 6 by norm_num, pow_add, ← mul_assoc, ← mul_pow]; norm_num

/-- C58, `kepler` on that range. -/
theorem C58_kepler_outbound_partial (hmu : 0 < mu) (hh : angular_momentum r v ≠ ⟨0, 0, 0⟩)
    (ha : aOf r v mu < 0) (he : 11 / 10 ≤ eOf r v mu) {H0 : ℝ}
    (hH0 : IsHyperbolic mu (aOf r v mu) (eOf r v mu) r v H0) (hout : 0 ≤ H0)
    (hsize : Real.sqrt (-aOf r v mu) ^ 3 * eOf r v mu ≤ 10 ^ 300)
    {ts : List ℝ} (hts : ∀ t ∈ ts, 0 ≤ t ∧ H0 + mean_anomaly_hypb (aOf r v mu) t mu ≤ 20)
    {rs vs : List (V3 ℝ)} (hk : kepler ts r v mu = some (rs, vs)) {i : ℕ} {r' v' : V3 ℝ}
    (hr' : rs[i]? = some r') (hv' : vs[i]? = some v') :
    ∃ t t', ts[i]? = some t ∧ |t' - t| ≤ 1 / 1000000 / Real.sqrt mu ∧ (r', v') = exactProp r v mu t' := by
  obtain ⟨t, χ, t', h1, h2, h3, h4, -⟩ := C23_exact_up_to_time hmu hh hk hr' hv'
  obtain ⟨ht, hB⟩ := hts t (List.mem_of_getElem? h1)
  obtain ⟨χ', h5, h6⟩ := C58_outbound_default_partial hmu ha he hH0 hout hsize ht hB 50 (by norm_num)
  have h7 : solve_kepler_uni t (alphaOf r v mu) (V3.norm r) (sigma_fn r v mu) mu defaultTol 50 = some χ' := h5
  obtain rfl : χ' = χ := Option.some.inj (h7.symm.trans h2)
  refine ⟨t, t', h1, ?_, h4⟩
  rw [h3, add_sub_cancel_left, abs_div, abs_of_pos (Real.sqrt_pos.2 hmu)]
  exact div_le_div_of_nonneg_right h6 (Real.sqrt_nonneg _)

/-! ### concrete hyperbolas -/

/-- The state with `mu = 1`, `a = -1`, eccentricity `e` and hyperbolic anomaly `H`, position on the x-axis. -/
noncomputable def hypR (e H : ℝ) : V3 ℝ := ⟨e * Real.cosh H - 1, 0, 0⟩
noncomputable def hypV (e H : ℝ) : V3 ℝ :=
  ⟨e * Real.sinh H / (e * Real.cosh H - 1), Real.sqrt (e ^ 2 - 1) / (e * Real.cosh H - 1), 0⟩

theorem hyp_state {e : ℝ} (he : 1 < e) (H : ℝ) : angular_momentum (hypR e H) (hypV e H) ≠ ⟨0, 0, 0⟩ ∧
    aOf (hypR e H) (hypV e H) 1 = -1 ∧ eOf (hypR e H) (hypV e H) 1 = e ∧
    IsHyperbolic 1 (-1) e (hypR e H) (hypV e H) H := by
  have hc := Real.one_le_cosh H
  have hcs := Real.cosh_sq H
  have hR : 0 < e * Real.cosh H - 1 := by nlinarith
  have he2 : 0 < e ^ 2 - 1 := by nlinarith
  have hq : Real.sqrt (e ^ 2 - 1) ^ 2 = e ^ 2 - 1 := Real.sq_sqrt he2.le
  have hq0 : 0 < Real.sqrt (e ^ 2 - 1) := Real.sqrt_pos.2 he2
  have hh : angular_momentum (hypR e H) (hypV e H) = ⟨0, 0, Real.sqrt (e ^ 2 - 1)⟩ := by
    simp only [angular_momentum, V3.cross, hypR, hypV, mul_zero, zero_mul, sub_zero, sub_self]
    rw [mul_div_cancel₀ _ hR.ne']
  have hh' : angular_momentum (hypR e H) (hypV e H) ≠ ⟨0, 0, 0⟩ := by
    rw [hh]; intro h; have := congrArg V3.z h; simp only at this; linarith
  have hn : V3.norm (hypR e H) = e * Real.cosh H - 1 := by
    rw [norm_unfold, hypR]
    simp only [ne_eq, OfNat.ofNat_ne_zero, not_false_eq_true, zero_pow, add_zero]
    exact Real.sqrt_sq hR.le
  have hn' : V3.norm (hypV e H) ^ 2 = (e * Real.cosh H + 1) / (e * Real.cosh H - 1) := by
    rw [norm_unfold, Real.sq_sqrt (by positivity), hypV]
    simp only [div_pow, hq]
    field_simp
    nlinarith
  have ha : aOf (hypR e H) (hypV e H) 1 = -1 := by
    simp only [aOf, semimajor_axis, hn, hn', Nat.cast_ofNat, Nat.cast_one]
    rw [div_one, ← sub_div, show 2 - (e * Real.cosh H + 1) = -(e * Real.cosh H - 1) by ring, neg_div, div_self hR.ne']
    norm_num
  have hα : alphaOf (hypR e H) (hypV e H) 1 = -1 := by
    have : alphaOf (hypR e H) (hypV e H) 1 = 1 / aOf (hypR e H) (hypV e H) 1 := rfl
    rw [this, ha]; norm_num
  have hσ : sigma_fn (hypR e H) (hypV e H) 1 = e * Real.sinh H := by
    have := sigma_rv (r := hypR e H) (v := hypV e H) (mu := 1) one_pos
    simp only [V3.dot, hypR, hypV, mul_zero, zero_mul, add_zero, Real.sqrt_one, one_mul] at this
    rw [mul_div_cancel₀ _ hR.ne'] at this
    exact this.symm
  have h1 := pOf_inv (r := hypR e H) (v := hypV e H) (mu := 1) one_pos hh'
  have h2 := pOf_alpha (r := hypR e H) (v := hypV e H) (mu := 1) one_pos hh'
  rw [hα, hn, hσ] at h1
  rw [hα, ← h1] at h2
  have he0 : 0 ≤ eOf (hypR e H) (hypV e H) 1 := V3.norm_nonneg _
  have hee : eOf (hypR e H) (hypV e H) 1 = e := by
    have : eOf (hypR e H) (hypV e H) 1 ^ 2 = e ^ 2 := by nlinarith
    exact (sq_eq_sq₀ he0 (by linarith)).1 this
  refine ⟨hh', ha, hee, ?_⟩
  rw [isHyperbolic_iff one_pos (by norm_num), hn, hσ, neg_neg, Real.sqrt_one]
  constructor <;> ring

theorem mean_hypb_unit (t : ℝ) : mean_anomaly_hypb (-1 : ℝ) t 1 = t := by
  rw [mean_anomaly_hypb, sqrt_real]; norm_num

/-- From the periapsis of a hyperbola with `e = 1.2`, a time of flight of `60` (in units of `1/n`). -/
theorem C58_periapsis_example : ∃ r' v' t', kepler [60] (hypR (6 / 5) 0) (hypV (6 / 5) 0) 1 = some ([r'], [v']) ∧
    (r', v') = exactProp (hypR (6 / 5) 0) (hypV (6 / 5) 0) 1 t' ∧ 6000 ≤ t' := by
  obtain ⟨h1, h2, h3, h4⟩ := hyp_state (by norm_num : (1 : ℝ) < 6 / 5) 0
  have hσ : sigma_fn (hypR (6 / 5) 0) (hypV (6 / 5) 0) 1 = 0 := by
    have := ((isHyperbolic_iff one_pos (by norm_num)).1 h4).2
    simpa using this
  obtain ⟨r', v', t', a, b, c⟩ := C58_periapsis_refuted one_pos h1 (by rw [h2]; norm_num) hσ (t := 60)
    (by rw [h2, mean_hypb_unit])
  exact ⟨r', v', t', a, b, by linarith⟩

/-- On the way in on the same hyperbola, from hyperbolic anomaly `-4`, with a time of flight of `4`, well before
periapsis: the returned state is that of a time off by more than `1`. -/
theorem C58_inbound_example : ∃ r' v' t', kepler [4] (hypR (6 / 5) (-4)) (hypV (6 / 5) (-4)) 1 = some ([r'], [v']) ∧
    (r', v') = exactProp (hypR (6 / 5) (-4)) (hypV (6 / 5) (-4)) 1 t' ∧ 1 ≤ |t' - 4| := by
  obtain ⟨h1, h2, h3, h4⟩ := hyp_state (by norm_num : (1 : ℝ) < 6 / 5) (-4)
  have e4 : (54 : ℝ) ≤ Real.exp 4 := exp_ge_of_pow (p := 4) (q := 1) (by norm_num) (by norm_num) (by norm_num)
  have hs : (26 : ℝ) ≤ Real.sinh 4 := by
    have hm : Real.exp (-4 : ℝ) ≤ 1 := Real.exp_le_one_iff.2 (by norm_num)
    rw [Real.sinh_eq]; linarith
  obtain ⟨r', v', t', a, b, c⟩ := C58_inbound_refuted one_pos h1 (by rw [h2]; norm_num) (h := 4) (t := 4)
    (by rw [h2, h3]; exact h4) (by rw [h2, mean_hypb_unit]) (by rw [h3]; norm_num) (by rw [h3]; linarith)
    (by rw [h3]; linarith)
  rw [h2, mean_hypb_unit] at c
  exact ⟨r', v', t', a, b, c⟩

/-- The range that works, on the same hyperbola: every time of flight up to 20 from periapsis. -/
example (t : ℝ) (h0 : 0 ≤ t) (h1 : t ≤ 20) {rs vs : List (V3 ℝ)}
    (hk : kepler [t] (hypR (6 / 5) 0) (hypV (6 / 5) 0) 1 = some (rs, vs)) {r' v' : V3 ℝ}
    (hr' : rs[0]? = some r') (hv' : vs[0]? = some v') :
    ∃ t', |t' - t| ≤ 1 / 1000000 ∧ (r', v') = exactProp (hypR (6 / 5) 0) (hypV (6 / 5) 0) 1 t' := by
  obtain ⟨a1, a2, a3, a4⟩ := hyp_state (by norm_num : (1 : ℝ) < 6 / 5) 0
  obtain ⟨t1, t', b1, b2, b3⟩ := C58_kepler_outbound_partial one_pos a1 (by rw [a2]; norm_num) (by rw [a3]; norm_num)
    (H0 := 0) (by rw [a2, a3]; exact a4) le_rfl
    (by rw [a2, a3, neg_neg, Real.sqrt_one, one_pow, one_mul]
        exact le_trans (by norm_num : (6 / 5 : ℝ) ≤ 10 ^ 1) (pow_le_pow_right₀ (by norm_num) (by norm_num)))
    (by simp only [List.mem_singleton, forall_eq, a2, mean_hypb_unit]; exact ⟨h0, by linarith⟩) hk hr' hv'
  obtain rfl : t = t1 := by simpa using b1
  exact ⟨t', by simpa using b2, b3⟩

end Adx
