import Verif.Props.C63e

/-! # C63, continued: the universal solver on the way out of a hyperbola

On a hyperbola the universal solver is Newton's method for the hyperbolic Kepler equation, started at `H0 + n t` (C58). -/

namespace Adx
open Spec V3 Set

section step
variable {e N x : ℝ}

theorem newtonHypb_hasDerivAt (he : 1 < e) {X : ℝ → ℝ} {T : ℝ} (h : HasDerivAt X T N) :
    HasDerivAt (fun N => newtonHypb N e (X N))
      ((1 + hypbStep N e (X N) * (e * Real.sinh (X N)) * T) / (e * Real.cosh (X N) - 1)) N := by
  have hp : e * Real.cosh (X N) - 1 ≠ 0 := by linarith [hypb_den_pos he (X N)]
  have h1 := h.fun_sub ((((h.sinh.const_mul e).fun_sub h).fun_sub (hasDerivAt_id' N)).fun_div
    ((h.cosh.const_mul e).sub_const 1) hp)
  have h2 : (fun x => X x - (e * Real.sinh (X x) - X x - x) / (e * Real.cosh (X x) - 1)) = fun N => newtonHypb N e (X N) := by
    funext x; rw [newtonHypb_step, hypbStep]
  rw [h2] at h1
  refine h1.congr_deriv ?_
  rw [hypbStep]
  field_simp
  ring

/-- What is left of a tangent of size at most 1 after the last step, times the slope at the root. -/
theorem hypb_hom_last (he : 1 < e) (hN : 0 ≤ N) (hx : 0 ≤ x) (hf : 0 ≤ e * Real.sinh x - x - N) {P r tol : ℝ}
    (hP0 : 0 ≤ P) (hP : P ≤ 1) (hr : e * Real.sinh r - r = N)
    (hy : e * Real.sinh (x - hypbStep N e x) - (x - hypbStep N e x) - N ≤ tol) :
    |hypbStep N e x * (e * Real.sinh x) * P / (e * Real.cosh x - 1) * (e * Real.cosh r - 1)|
      ≤ hypbKappa e tol * Real.sqrt ((e - 1) * (e * Real.cosh r - 1)) := by
  have hp : 0 < e * Real.cosh x - 1 := by linarith [hypb_den_pos he x]
  have he1 : 0 < e - 1 := by linarith
  have hX : 0 ≤ Real.sinh x := Real.sinh_nonneg_iff.2 hx
  have hy0 := hypb_residual_nonneg he hN hx
  have htol : 0 ≤ tol := hy0.trans hy
  have hk := hypbKappa_nonneg e tol
  have hr0 := hypb_root_nonneg he hr hN
  have hrx := hypb_root_le he hr hf
  have h0 : 0 ≤ hypbStep N e x := hypbStep_nonneg he hf
  have h1 := (hypb_residual_ge he hN hx).trans hy
  have h2 := hypbKappa_use he htol x
  set κ := hypbKappa e tol
  set s := hypbStep N e x
  set p := e * Real.cosh x - 1 with hpdef
  set q := e * Real.cosh r - 1 with hqdef
  have hq0 : 0 < q := by linarith [hypb_den_pos he r]
  have hqp : q ≤ p := by
    have : Real.cosh r ≤ Real.cosh x := Real.cosh_le_cosh.2 (by rw [abs_of_nonneg hr0, abs_of_nonneg hx]; exact hrx)
    rw [hpdef, hqdef]; nlinarith
  have hS : 0 ≤ e * Real.sinh x := by positivity
  set A := s * (e * Real.sinh x) with hA
  have hA0 : 0 ≤ A := by positivity
  have hA2 : A ^ 2 ≤ κ ^ 2 * ((e - 1) * p) := by
    have : A ^ 2 = 4 * (s ^ 2 / 4 * (e * Real.sinh x)) * (e * Real.sinh x) := by rw [hA]; ring
    rw [this]
    have := mul_le_mul_of_nonneg_right h1 hS
    linarith
  rw [abs_of_nonneg (by positivity)]
  refine le_of_sq_le_sq ?_ (by positivity)
  rw [mul_pow κ, Real.sq_sqrt (by positivity)]
  have e1 : (A * P / p * q) ^ 2 = A ^ 2 * P ^ 2 * (q / p) ^ 2 := by field_simp
  rw [e1]
  have hqp1 : q / p ≤ 1 := (div_le_one hp).2 hqp
  have hqp0 : 0 ≤ q / p := by positivity
  calc A ^ 2 * P ^ 2 * (q / p) ^ 2 ≤ κ ^ 2 * ((e - 1) * p) * 1 ^ 2 * (q / p) ^ 2 := by gcongr
    _ = κ ^ 2 * ((e - 1) * q) * (q / p) := by field_simp
    _ ≤ κ ^ 2 * ((e - 1) * q) * 1 := by gcongr
    _ = _ := by ring

end step

section iter
variable {e c : ℝ}

/-- The iterates started at `N + c`, as functions of `N`. -/
noncomputable def hypbIterS (e c : ℝ) (k : ℕ) (N : ℝ) : ℝ := (newtonHypb N e)^[k] (N + c)

theorem hypbIterS_succ (e c : ℝ) (k : ℕ) (N : ℝ) :
    hypbIterS e c (k + 1) N = hypbIterS e c k N - hypbStep N e (hypbIterS e c k N) := by
  rw [hypbIterS, Function.iterate_succ_apply', newtonHypb_step]; rfl

theorem hypbIterS_inv (he : 1 < e) {N : ℝ} (hN : 0 ≤ N) (hx : 0 ≤ N + c) (hf : 0 ≤ e * Real.sinh (N + c) - (N + c) - N)
    (k : ℕ) : ∃ I P, HasDerivAt (hypbIterS e c k) (I + P) N ∧ 0 ≤ hypbIterS e c k N ∧
      0 ≤ e * Real.sinh (hypbIterS e c k N) - hypbIterS e c k N - N ∧
      |I| * (e * Real.cosh (hypbIterS e c k N) - 1) ≤ 2 ∧ 0 ≤ P ∧ P ≤ 1 := by
  induction k with
  | zero => exact ⟨0, 1, by rw [zero_add]; exact (hasDerivAt_id' N).add_const c, hx, hf, by simp, zero_le_one, le_rfl⟩
  | succ k ih =>
    obtain ⟨I, P, h1, h2, h3, h4, h5, h6⟩ := ih
    have hp : 0 < e * Real.cosh (hypbIterS e c k N) - 1 := by linarith [hypb_den_pos he (hypbIterS e c k N)]
    have hs := hypbStep_nonneg (N := N) he h3
    have hX := Real.sinh_nonneg_iff.2 h2
    refine ⟨(1 + hypbStep N e (hypbIterS e c k N) * (e * Real.sinh (hypbIterS e c k N)) * I)
        / (e * Real.cosh (hypbIterS e c k N) - 1),
      hypbStep N e (hypbIterS e c k N) * (e * Real.sinh (hypbIterS e c k N)) * P / (e * Real.cosh (hypbIterS e c k N) - 1),
      ?_, ?_, ?_, ?_, ?_, ?_⟩
    · have := newtonHypb_hasDerivAt he h1
      have h7 : (fun N => newtonHypb N e (hypbIterS e c k N)) = hypbIterS e c (k + 1) := by
        funext x; rw [hypbIterS, hypbIterS, Function.iterate_succ_apply']
      rw [h7] at this
      refine this.congr_deriv ?_
      ring
    · rw [hypbIterS_succ]; exact hypb_next_nonneg he hN h2
    · rw [hypbIterS_succ]; exact hypb_residual_nonneg he hN h2
    · rw [hypbIterS_succ]; exact hypb_tangent_keep he hN h2 h3 le_rfl h4
    · positivity
    · rw [div_le_one hp]
      have := hypb_theta_le_one he hN h2
      have h8 : 0 ≤ hypbStep N e (hypbIterS e c k N) * (e * Real.sinh (hypbIterS e c k N)) := by positivity
      nlinarith

theorem hypbIterS_error (he : 1 < e) {N : ℝ} (hN : 0 ≤ N) (hx : 0 ≤ N + c)
    (hf : 0 ≤ e * Real.sinh (N + c) - (N + c) - N) (k : ℕ) {r tol : ℝ} (hr : kepler_equ_hypb r e N = 0)
    (hres : |kepler_equ_hypb (hypbIterS e c (k + 1) N) e N| ≤ tol) :
    ∃ T, HasDerivAt (hypbIterS e c (k + 1)) T N ∧
      |T * (e * Real.cosh r - 1) - 1| ≤ 3 * hypbKappa e tol + hypbKappa e tol ^ 2 / 4
        + hypbKappa e tol * Real.sqrt ((e - 1) * (e * Real.cosh r - 1)) ∧
      (e * Real.cosh (hypbIterS e c (k + 1) N) - 1) * (1 - hypbKappa e tol ^ 2 / 4) ≤ e * Real.cosh r - 1 ∧
      e * Real.cosh r - 1 ≤ e * Real.cosh (hypbIterS e c (k + 1) N) - 1 := by
  rw [kep_hypb_eq] at hr hres
  have hr' : e * Real.sinh r - r = N := by linarith
  obtain ⟨I, P, h1, h2, h3, h4, h5, h6⟩ := hypbIterS_inv he hN hx hf k
  have h7 := newtonHypb_hasDerivAt he h1
  have h8 : (fun N => newtonHypb N e (hypbIterS e c k N)) = hypbIterS e c (k + 1) := by
    funext x; rw [hypbIterS, hypbIterS, Function.iterate_succ_apply']
  rw [h8] at h7
  refine ⟨_, h7, ?_, ?_⟩
  swap
  · obtain ⟨-, -, -, y1, y2, -⟩ := hypbIterS_inv he hN hx hf (k + 1)
    have hy := (le_abs_self _).trans hres
    have htol := y2.trans hy
    have y3 := hypb_root_le he hr' y2
    have y4 := hypb_slope he y3
    have y5 := cosh_tangent y3
    have y6 := hypbKappa_use he htol (hypbIterS e c (k + 1) N)
    have y7 := Real.sinh_nonneg_iff.2 y1
    have y8 := hypb_root_nonneg he hr' hN
    have y9 : Real.cosh r ≤ Real.cosh (hypbIterS e c (k + 1) N) :=
      Real.cosh_le_cosh.2 (by rwa [abs_of_nonneg y8, abs_of_nonneg y1])
    set y := hypbIterS e c (k + 1) N
    have he1 : 0 < e - 1 := by linarith
    refine ⟨?_, by nlinarith⟩
    refine le_of_mul_le_mul_right ?_ he1
    have b1 : (y - r) * (e - 1) ≤ tol := by linarith
    have b2 := mul_le_mul_of_nonneg_right b1 (by positivity : 0 ≤ e * Real.sinh y)
    have b3 := mul_le_mul_of_nonneg_left y5 (by nlinarith : 0 ≤ e * (e - 1))
    linarith
  rw [hypbIterS_succ] at hres
  have hy := (le_abs_self _).trans hres
  have a1 := hypb_tangent_last he hN h2 h3 h4 hr' hy
  have a2 := hypb_hom_last he hN h2 h3 h5 h6 hr' hy
  set x := hypbIterS e c k N
  set A := hypbStep N e x * (e * Real.sinh x)
  set p := e * Real.cosh x - 1
  set q := e * Real.cosh r - 1
  rw [show (1 + A * (I + P)) / p * q - 1 = ((1 + A * I) / p * q - 1) + A * P / p * q by ring]
  refine (abs_add_le _ _).trans ?_
  linarith

end iter

section uni
variable {r v : V3 ℝ} {mu : ℝ}

/-- On the way out, at a distance of at least `-a`, the starting value is beyond the root. -/
theorem outbound_start {e H0 m : ℝ} (he : 0 ≤ e) (hH0 : 0 ≤ H0) (hc : 2 ≤ e * Real.cosh H0) (hm : 0 ≤ m) :
    0 ≤ e * Real.sinh (H0 + m) - (H0 + m) - (e * Real.sinh H0 - H0 + m) := by
  have h1 := sinh_tangent hH0 (by linarith : 0 ≤ H0 + m)
  nlinarith

/-- C63 for the universal solver on a hyperbola, on the way out (`r·v ≥ 0`) from a distance of at least `-a` and forward in
time: whenever a step is made and the result meets the tolerance, the derivative of the returned variable with respect to
time is that of the exact one, `√mu/R` with `R` the final distance, up to the stated relative error. -/
theorem C63_uni_outbound (hmu : 0 < mu) (hh : angular_momentum r v ≠ ⟨0, 0, 0⟩) (ha : aOf r v mu < 0)
    (hout : 0 ≤ sigma_fn r v mu) (hfar : -aOf r v mu ≤ V3.norm r) {t : ℝ} (ht : 0 ≤ t) {tol : ℝ} {n : ℕ} {d : Dual ℝ}
    (hd : solve_kepler_uni ⟨t, some 1⟩ (cst (alphaOf r v mu)) (cst (V3.norm r)) (cst (sigma_fn r v mu)) (cst mu)
      (cst tol) n = some d)
    (hstart : tol < |kepler_equ_uni (uniStart t (alphaOf r v mu) mu) (alphaOf r v mu) (V3.norm r) (sigma_fn r v mu) t mu|)
    (hres : |kepler_equ_uni d.val (alphaOf r v mu) (V3.norm r) (sigma_fn r v mu) t mu| ≤ tol) :
    ∃ D, HasDerivAt (exactChi r v mu) D t ∧ D = Real.sqrt mu / V3.norm (exactProp r v mu t).1 ∧
      |Dual.dot d - D| ≤ (3 * hypbKappa (eOf r v mu) (tol / Real.sqrt (-aOf r v mu) ^ 3)
        + hypbKappa (eOf r v mu) (tol / Real.sqrt (-aOf r v mu) ^ 3) ^ 2 / 4
        + hypbKappa (eOf r v mu) (tol / Real.sqrt (-aOf r v mu) ^ 3)
          * Real.sqrt ((eOf r v mu - 1) * (V3.norm (exactProp r v mu t).1 / -aOf r v mu))) * D ∧
      |Dual.dot d * radOf r v mu d.val / Real.sqrt mu - 1| * (1 - hypbKappa (eOf r v mu) (tol / Real.sqrt (-aOf r v mu) ^ 3) ^ 2 / 4)
        ≤ 3 * hypbKappa (eOf r v mu) (tol / Real.sqrt (-aOf r v mu) ^ 3)
          + hypbKappa (eOf r v mu) (tol / Real.sqrt (-aOf r v mu) ^ 3) ^ 2 / 2
          + hypbKappa (eOf r v mu) (tol / Real.sqrt (-aOf r v mu) ^ 3)
            * Real.sqrt ((eOf r v mu - 1) * (V3.norm (exactProp r v mu t).1 / -aOf r v mu)) := by
  have he := one_lt_ecc hmu hh ha
  have hna : 0 < -aOf r v mu := by linarith
  have hb : 0 < Real.sqrt (-aOf r v mu) := Real.sqrt_pos.2 hna
  have hb2 : Real.sqrt (-aOf r v mu) ^ 2 = -aOf r v mu := Real.sq_sqrt hna.le
  have hs := Real.sqrt_pos.2 hmu
  obtain ⟨H0, hH0, -⟩ := C53_hyperbolic_existsUnique hmu hh ha
  obtain ⟨g1, g2⟩ := (isHyperbolic_iff hmu ha).1 hH0
  have hH00 : 0 ≤ H0 := by
    rw [g2] at hout
    have := nonneg_of_mul_nonneg_right hout hb
    exact Real.sinh_nonneg_iff.1 (nonneg_of_mul_nonneg_right this (by linarith))
  have hc : 2 ≤ eOf r v mu * Real.cosh H0 := by
    rw [g1, hb2] at hfar
    have h : (1 : ℝ) ≤ eOf r v mu * Real.cosh H0 - 1 := le_of_mul_le_mul_left (by rw [mul_one]; exact hfar) hna
    linarith
  set e := eOf r v mu with hedef
  set b := Real.sqrt (-aOf r v mu) with hbdef
  set c := H0 - (e * Real.sinh H0 - H0) with hcdef
  have hm : ∀ s, meanHypb r v mu H0 s = e * Real.sinh H0 - H0 + s * Real.sqrt mu / b ^ 3 := by
    intro s
    rw [meanHypb, hypb_time hmu ha s, ← hbdef, ← hedef]
    field_simp
  have hm0 : 0 ≤ mean_anomaly_hypb (aOf r v mu) t mu := by
    rw [show mean_anomaly_hypb (aOf r v mu) t mu = t * Real.sqrt mu / b ^ 3 by
      rw [hypb_time hmu ha t, ← hbdef]; field_simp]
    positivity
  have hst : ∀ s, H0 + mean_anomaly_hypb (aOf r v mu) s mu = meanHypb r v mu H0 s + c := by
    intro s; rw [meanHypb, hcdef]; ring
  have hit : ∀ j s, (newtonUni s (alphaOf r v mu) (V3.norm r) (sigma_fn r v mu) mu)^[j] (uniStart s (alphaOf r v mu) mu)
      = b * (hypbIterS e c j (meanHypb r v mu H0 s) - H0) := by
    intro j s
    have := C58_hyperbolic_newton hmu ha hH0 s j
    rw [hst] at this
    exact this
  have hN : 0 ≤ meanHypb r v mu H0 t := by
    have : 0 ≤ e * Real.sinh H0 - H0 := by
      have := Real.self_le_sinh_iff.2 hH00
      nlinarith
    rw [meanHypb]; linarith
  have hx : 0 ≤ meanHypb r v mu H0 t + c := by rw [← hst]; linarith
  have hf : 0 ≤ e * Real.sinh (meanHypb r v mu H0 t + c) - (meanHypb r v mu H0 t + c) - meanHypb r v mu H0 t := by
    rw [← hst, meanHypb]
    exact outbound_start (by linarith) hH00 hc hm0
  obtain ⟨k, -, hk, -, -⟩ := uni_dual (⟨t, some 1⟩ : Dual ℝ) (cst (alphaOf r v mu)) (cst (V3.norm r))
    (cst (sigma_fn r v mu)) (cst mu) tol n
  obtain rfl := Option.some.inj (hd.symm.trans hk)
  have hα0 : alphaOf r v mu ≠ 0 := one_div_ne_zero ha.ne
  have htr := C63_uni_iterate (T := fun s => s) (s := t) (T' := ⟨t, some 1⟩) ⟨rfl, hasDerivAt_id' t⟩
    (Tracks.const (alphaOf r v mu)) (Tracks.const (V3.norm r)) (Tracks.const (sigma_fn r v mu)) (Tracks.const mu)
    hα0 hmu (fun _ => radOf_pos hmu hh) k
  rw [htr.val] at hres
  rcases k with _ | k
  · exact absurd hres (not_le.2 hstart)
  obtain ⟨H, hH⟩ := (existsUnique_root (show (0 : ℝ) < e - 1 by linarith)
    (fun H => hasDerivAt_hypb H e (meanHypb r v mu H0 t)) (dH_ge (by linarith)) 0).exists
  obtain ⟨m1, m2, m3, m4⟩ := C53_hyperbolic_motion hmu hh ha hH0 (t := t) (H := H) hH
  have m5 := ((isHyperbolic_iff hmu ha).1 m1).1
  have hres' : |kepler_equ_hypb (hypbIterS e c (k + 1) (meanHypb r v mu H0 t)) e (meanHypb r v mu H0 t)| ≤ tol / b ^ 3 := by
    rw [le_div_iff₀ (by positivity)]
    refine le_trans (le_of_eq ?_) hres
    rw [hit]
    have := (C53_hyperbolic_equation hmu ha hH0 t (hypbIterS e c (k + 1) (meanHypb r v mu H0 t))).1
    rw [show (1 / aOf r v mu) = alphaOf r v mu from rfl] at this
    rw [this, abs_mul, abs_of_pos (by positivity : 0 < b ^ 3), mul_comm]
    rfl
  obtain ⟨T, hT, hE, hq1, hq2⟩ := hypbIterS_error he hN hx hf k hH hres'
  have hR : V3.norm (exactProp r v mu t).1 / -aOf r v mu = e * Real.cosh H - 1 := by
    rw [m5, ← hedef, ← hbdef, ← hb2]; field_simp
  have hq : 0 < e * Real.cosh H - 1 := by linarith [hypb_den_pos he H]
  have hdm : HasDerivAt (fun s => meanHypb r v mu H0 s) (Real.sqrt mu / b ^ 3) t := by
    have h1 : HasDerivAt (fun s : ℝ => e * Real.sinh H0 - H0 + s * Real.sqrt mu / b ^ 3) (1 * Real.sqrt mu / b ^ 3) t :=
      (((hasDerivAt_id' t).mul_const (Real.sqrt mu)).div_const (b ^ 3)).const_add _
    rw [one_mul] at h1
    rwa [show (fun s => meanHypb r v mu H0 s) = fun s : ℝ => e * Real.sinh H0 - H0 + s * Real.sqrt mu / b ^ 3 from
      funext hm]
  have hdd : HasDerivAt (fun s => b * (hypbIterS e c (k + 1) (meanHypb r v mu H0 s) - H0))
      (b * (T * (Real.sqrt mu / b ^ 3))) t := ((hT.comp t hdm).sub_const H0).const_mul b
  have hdot := htr.deriv.unique (by rw [show (fun s => (newtonUni s (alphaOf r v mu) (V3.norm r) (sigma_fn r v mu) mu)^[k + 1]
    (uniStart s (alphaOf r v mu) mu)) = _ from funext (hit (k + 1))]; exact hdd)
  refine ⟨_, hasDerivAt_exactChi hmu hh t, by rw [norm_exactProp hmu hh], ?_, ?_⟩
  swap
  · have hrad : radOf r v mu (b * (hypbIterS e c (k + 1) (meanHypb r v mu H0 t) - H0))
        = b ^ 2 * (e * Real.cosh (hypbIterS e c (k + 1) (meanHypb r v mu H0 t)) - 1) := by
      have := (C53_hyperbolic_equation hmu ha hH0 t (hypbIterS e c (k + 1) (meanHypb r v mu H0 t))).2
      rw [show (1 / aOf r v mu) = alphaOf r v mu from rfl, dchi_eq, dH_eq] at this
      rw [hb2]
      exact this
    rw [htr.val, hit, hdot, hrad, hR]
    set y := hypbIterS e c (k + 1) (meanHypb r v mu H0 t)
    set κ := hypbKappa e (tol / b ^ 3)
    set q := e * Real.cosh H - 1
    set p := e * Real.cosh y - 1
    have hp : 0 < p := hq.trans_le hq2
    rw [show b * (T * (Real.sqrt mu / b ^ 3)) * (b ^ 2 * p) / Real.sqrt mu - 1 = T * p - 1 by field_simp]
    have h1 : |T * p - 1| * q ≤ (|T * q - 1| + κ ^ 2 / 4) * p := by
      have : (T * p - 1) * q = (T * q - 1) * p + (p - q) := by ring
      rw [← abs_of_pos hq, ← abs_mul, this]
      refine (abs_add_le _ _).trans ?_
      rw [abs_mul, abs_of_pos hp, abs_of_nonneg (by linarith : 0 ≤ p - q), abs_of_pos hq]
      nlinarith
    have h2 : |T * p - 1| * (p * (1 - κ ^ 2 / 4)) ≤ |T * p - 1| * q := by gcongr
    refine le_of_mul_le_mul_right ?_ hp
    calc |T * p - 1| * (1 - κ ^ 2 / 4) * p = |T * p - 1| * (p * (1 - κ ^ 2 / 4)) := by ring
      _ ≤ (|T * q - 1| + κ ^ 2 / 4) * p := h2.trans h1
      _ ≤ _ := mul_le_mul_of_nonneg_right (by linarith) hp.le
  rw [← norm_exactProp hmu hh, hR, hdot, m5]
  have hfac : b * (T * (Real.sqrt mu / b ^ 3)) - Real.sqrt mu / (b ^ 2 * (e * Real.cosh H - 1))
      = (T * (e * Real.cosh H - 1) - 1) * (Real.sqrt mu / (b ^ 2 * (e * Real.cosh H - 1))) := by
    field_simp
  rw [hfac, abs_mul, abs_of_pos (by positivity : 0 < Real.sqrt mu / (b ^ 2 * (e * Real.cosh H - 1)))]
  gcongr

/-- The derivative of `kepler` with respect to time, on the way out of a hyperbola with `e ≥ 1.1` and `-a ≥ 1`, from a
distance of at least `-a` to a distance of at most `-100 a`: unless the starting value is accepted as it is, forward
mode returns the velocity and the acceleration up to a factor within `1/16` of 1. Missing: the starting value is accepted
(`C63_uni_refuted`), longer times and the way in (C58), other orbits. -/
theorem C63_kepler_outbound_partial (hmu : 0 < mu) (hh : angular_momentum r v ≠ ⟨0, 0, 0⟩)
    (ha : aOf r v mu ≤ -1) (he : 11 / 10 ≤ eOf r v mu) {H0 : ℝ}
    (hH0 : IsHyperbolic mu (aOf r v mu) (eOf r v mu) r v H0) (hout : 0 ≤ H0) (hfar : -aOf r v mu ≤ V3.norm r)
    (hsize : Real.sqrt (-aOf r v mu) ^ 3 * eOf r v mu ≤ 10 ^ 300) {t : ℝ} (ht : 0 ≤ t)
    (hB : H0 + mean_anomaly_hypb (aOf r v mu) t mu ≤ 20)
    (hR : V3.norm (exactProp r v mu t).1 ≤ 100 * -aOf r v mu)
    (hstart : 1 / 1000000
      < |kepler_equ_uni (uniStart t (alphaOf r v mu) mu) (alphaOf r v mu) (V3.norm r) (sigma_fn r v mu) t mu|) :
    ∃ R V, ∃ t' ρ : ℝ, kepler [(⟨t, some 1⟩ : Dual ℝ)] (cstV r) (cstV v) (cst mu) = some ([R], [V]) ∧
      (R.vals, V.vals) = exactProp r v mu t' ∧ |t' - t| ≤ 1 / 1000000 / Real.sqrt mu ∧
      dots R = ρ • V.vals ∧ dots V = ρ • ((-mu / V3.norm R.vals ^ 3) • R.vals) ∧ |ρ - 1| ≤ 1 / 16 := by
  have ha0 : aOf r v mu < 0 := by linarith
  have hs := Real.sqrt_pos.2 hmu
  have htol : (defaultTol : ℝ) = 1 / 1000000 := by norm_num [defaultTol]
  have hb : 1 ≤ Real.sqrt (-aOf r v mu) := Real.one_le_sqrt.2 (by linarith)
  have g2 := ((isHyperbolic_iff hmu ha0).1 hH0).2
  have hsig : 0 ≤ sigma_fn r v mu := by
    rw [g2]
    have := Real.sinh_nonneg_iff.2 hout
    positivity
  obtain ⟨R, V, k1, k2, k3, k4⟩ := C63_kepler_rate hmu hh (one_div_ne_zero ha0.ne) (⟨t, some 1⟩ : Dual ℝ)
  obtain ⟨χ, c1, c2⟩ := C58_outbound_default_partial hmu ha0 he hH0 hout hsize ht hB 50 (by norm_num)
  have c3 : solve_kepler_uni t (alphaOf r v mu) (V3.norm r) (sigma_fn r v mu) mu = some χ := c1
  rw [solve_eq_chiOf] at c3
  set d := chiOf (⟨t, some 1⟩ : Dual ℝ) (cst (alphaOf r v mu)) (cst (V3.norm r)) (cst (sigma_fn r v mu)) (cst mu) with hd
  have hdv : d.val = χ := by
    rw [hd, chiOf_vals]; exact Option.some.inj c3
  have c4 : solve_kepler_uni ⟨t, some 1⟩ (cst (alphaOf r v mu)) (cst (V3.norm r)) (cst (sigma_fn r v mu)) (cst mu)
      (cst defaultTol) 50 = some d := solve_eq_chiOf _ _ _ _ _
  obtain ⟨D, -, -, -, h5⟩ := C63_uni_outbound hmu hh ha0 hsig hfar ht c4 (by rw [htol]; exact hstart)
    (by rw [hdv, htol]; exact c2)
  have hrow : (R.vals, V.vals) = stepOf r v mu χ := by
    rw [kepler_eq_map] at k2
    simp only [List.map_cons, List.map_nil, keplerRow_real, Option.some.inj c3] at k2
    obtain ⟨e1, e2⟩ := Prod.mk.inj (Option.some.inj k2)
    rw [← (List.cons.inj e1).1, ← (List.cons.inj e2).1]
  have hn : V3.norm R.vals = radOf r v mu χ := by
    rw [show R.vals = (stepOf r v mu χ).1 by rw [← hrow]]; exact step_norm (pos_ne hmu hh) hmu
  refine ⟨R, V, _, _, k1, hrow.trans (stepOf_eq_exactProp hmu hh χ), ?_, k3, k4, ?_⟩
  · have c5 : |kepler_equ_uni χ (alphaOf r v mu) (V3.norm r) (sigma_fn r v mu) t mu| ≤ 1 / 1000000 := c2
    rw [kep_uni_eq] at c5
    rw [le_div_iff₀ hs]
    nth_rw 2 [← abs_of_pos hs]
    rw [← abs_mul, sub_mul, div_mul_cancel₀ _ hs.ne', mul_comm t]
    exact c5
  rw [hn, ← hdv]
  set e := eOf r v mu
  set b := Real.sqrt (-aOf r v mu)
  have hb3 : (defaultTol : ℝ) / b ^ 3 ≤ 1 / 10 ^ 6 := by
    rw [htol]
    have : 1 ≤ b ^ 3 := one_le_pow₀ hb
    rw [div_le_iff₀ (by positivity)]
    linarith
  have hb0 : 0 ≤ (defaultTol : ℝ) / b ^ 3 := by rw [htol]; positivity
  have hκ : hypbKappa e (defaultTol / b ^ 3) ≤ 981 / 10 ^ 5 := by
    refine hypbKappa_le (a := 11) (b := 458 / 1000) (by linarith) hb0 ?_ (by norm_num) (by nlinarith)
      (by norm_num) (by nlinarith)
    rw [div_le_iff₀ (by linarith)]; linarith
  have hκ0 := hypbKappa_nonneg e (defaultTol / b ^ 3)
  have hκ2 : hypbKappa e (defaultTol / b ^ 3) ^ 2 / 4 * (e - 1) ≤ 241 / 10 ^ 8 := by
    have hw : 0 < Real.sqrt (e ^ 2 - 1) := Real.sqrt_pos.2 (by nlinarith)
    have h1 : e / Real.sqrt (e ^ 2 - 1) ≤ 241 / 100 := by
      rw [div_le_iff₀ hw]
      refine le_of_sq_le_sq ?_ (by positivity)
      rw [mul_pow, Real.sq_sqrt (by nlinarith)]
      nlinarith
    have he1 : 0 < e - 1 := by linarith
    rw [hypbKappa_sq (by linarith) hb0,
      show defaultTol / b ^ 3 * (e / ((e - 1) * Real.sqrt (e ^ 2 - 1))) * (e - 1)
        = defaultTol / b ^ 3 * (e / Real.sqrt (e ^ 2 - 1)) by field_simp]
    calc defaultTol / b ^ 3 * (e / Real.sqrt (e ^ 2 - 1)) ≤ 1 / 10 ^ 6 * (241 / 100) := by gcongr
      _ = _ := by norm_num
  set κ := hypbKappa e (defaultTol / b ^ 3)
  set X := V3.norm (exactProp r v mu t).1 / -aOf r v mu with hX
  have hX1 : X ≤ 100 := by rw [hX, div_le_iff₀ (by linarith)]; exact hR
  have hX0 : 0 ≤ X := div_nonneg (V3.norm_nonneg _) (by linarith)
  have h6 : κ * Real.sqrt ((e - 1) * X) ≤ 311 / 10 ^ 4 := by
    refine le_of_sq_le_sq ?_ (by norm_num)
    rw [mul_pow, Real.sq_sqrt (mul_nonneg (by linarith) hX0)]
    nlinarith
  nlinarith [abs_nonneg (Dual.dot d * radOf r v mu d.val / Real.sqrt mu - 1)]

/-- A hyperbola with `e = 2`, from periapsis. -/
example : ∃ r v : V3 ℝ, angular_momentum r v ≠ ⟨0, 0, 0⟩ ∧ aOf r v 1 ≤ -1 ∧ 11 / 10 ≤ eOf r v 1 ∧ 0 ≤ sigma_fn r v 1 ∧
    IsHyperbolic 1 (aOf r v 1) (eOf r v 1) r v 0 ∧ -aOf r v 1 ≤ V3.norm r ∧
    Real.sqrt (-aOf r v 1) ^ 3 * eOf r v 1 ≤ 10 ^ 300 ∧ 0 + mean_anomaly_hypb (aOf r v 1) 1 1 ≤ 20 ∧
    V3.norm (exactProp r v 1 1).1 ≤ 100 * -aOf r v 1 ∧
    1 / 1000000 < |kepler_equ_uni (uniStart 1 (alphaOf r v 1) 1) (alphaOf r v 1) (V3.norm r) (sigma_fn r v 1) 1 1| := by
  obtain ⟨h1, h2, h3, h4⟩ := hyp_state (show (1 : ℝ) < 2 by norm_num) 0
  have h5 : IsHyperbolic 1 (aOf (hypR 2 0) (hypV 2 0) 1) (eOf (hypR 2 0) (hypV 2 0) 1) (hypR 2 0) (hypV 2 0) 0 := by
    rw [h2, h3]; exact h4
  obtain ⟨g1, g2⟩ := (isHyperbolic_iff one_pos (by norm_num)).1 h4
  have h8 : mean_anomaly_hypb (-1) 1 1 = (1 : ℝ) := by norm_num [mean_anomaly_hypb]
  have h10 : (7 / 6 : ℝ) ≤ Real.sinh 1 := by
    rw [Real.sinh_eq]; linarith [Real.exp_one_gt_d9, Real.exp_neg_one_lt_d9]
  refine ⟨hypR 2 0, hypV 2 0, h1, h2.le, by rw [h3]; norm_num, by rw [g2]; simp, h5, by rw [g1, h2]; norm_num, ?_, ?_, ?_, ?_⟩
  · rw [h2, h3, neg_neg, Real.sqrt_one, one_pow, one_mul]
    exact le_trans (by norm_num : (2 : ℝ) ≤ 10 ^ 1) (pow_le_pow_right₀ (by norm_num) (by norm_num))
  · rw [h2, h8]; norm_num
  · obtain ⟨H, hH⟩ := (existsUnique_root (show (0 : ℝ) < 2 - 1 by norm_num)
      (fun H => hasDerivAt_hypb H 2 1) (dH_ge (by norm_num)) 0).exists
    have m1 := (C53_hyperbolic_motion one_pos h1 (by rw [h2]; norm_num) h5 (t := 1) (H := H) (by
      rw [h2, h3, h8]; simpa using hH)).1
    rw [h2, h3] at m1
    have m2 := ((isHyperbolic_iff one_pos (by norm_num)).1 m1).1
    have hr : 2 * Real.sinh H - H = 1 := by
      have : kepler_equ_hypb H 2 1 = 0 := hH
      rw [kep_hypb_eq] at this
      linarith
    have r1 := hypb_root_le (by norm_num) hr (by linarith : 0 ≤ 2 * Real.sinh 1 - 1 - 1)
    have r0 := hypb_root_nonneg (by norm_num) hr (by norm_num)
    have : Real.cosh H ≤ Real.cosh 1 := Real.cosh_le_cosh.2 (by rwa [abs_of_nonneg r0, abs_one])
    have h9 : Real.cosh 1 ≤ 2 := by
      rw [Real.cosh_eq]; linarith [Real.exp_one_lt_d9, Real.exp_neg_one_lt_d9]
    rw [m2, h2, neg_neg, Real.sqrt_one]
    linarith
  have h6 := (C53_hyperbolic_equation one_pos (by rw [h2]; norm_num) h5 1 1).1
  have h7 := C58_hyperbolic_newton one_pos (by rw [h2]; norm_num) h5 1 0
  simp only [Function.iterate_zero, id_eq, h2, h8, zero_add] at h7
  rw [h2, h3, h8] at h6
  rw [show alphaOf (hypR 2 0) (hypV 2 0) 1 = 1 / -1 by rw [alphaOf]; exact congrArg _ h2, h7, h6, kep_hypb_eq]
  simp
  rw [abs_of_nonneg (by linarith)]
  linarith

end uni
end Adx
