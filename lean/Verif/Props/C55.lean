import Verif.Props.C53
import Verif.Props.C18

/-! # C55: convergence of `kepler`'s root search on ellipses

On an ellipse `solve_kepler_uni` is Newton's method for Kepler's equation in disguise, started at
`M + e sin E0`. It therefore inherits both the good and the bad behaviour of that iteration. -/

namespace Adx
open V3 Spec

variable {r v : V3 ℝ} {mu : ℝ}

/-- The mean anomaly at time `t` of a state with eccentric anomaly `E0`. -/
noncomputable def meanAt (r v : V3 ℝ) (mu E0 t : ℝ) : ℝ :=
  E0 - eOf r v mu * Real.sin E0 + mean_anomaly_elps (aOf r v mu) t mu

/-- C55: the starting value and every Newton step of `solve_kepler_uni` on an ellipse are those of Newton's
method for `kepler_equ_elps`, started at `M + e sin E0`. -/
theorem C55_elliptic_newton (hmu : 0 < mu) (ha : 0 < aOf r v mu) {E0 : ℝ}
    (hE0 : IsEccentric mu (aOf r v mu) (eOf r v mu) r v E0) (t : ℝ) (k : ℕ) :
    (newtonUni t (1 / aOf r v mu) (V3.norm r) (sigma_fn r v mu) mu)^[k] (uniStart t (1 / aOf r v mu) mu)
      = Real.sqrt (aOf r v mu) * ((newtonElps (meanAt r v mu E0 t) (eOf r v mu))^[k]
          (meanAt r v mu E0 t + eOf r v mu * Real.sin E0) - E0) := by
  have hb : 0 < Real.sqrt (aOf r v mu) := Real.sqrt_pos.2 ha
  induction k with
  | zero =>
    have h3 : mu / aOf r v mu ^ 3 = mu / (Real.sqrt (aOf r v mu) ^ 3) ^ 2 := by
      rw [← pow_mul, show 3 * 2 = 2 * 3 by norm_num, pow_mul, Real.sq_sqrt ha.le]
    simp only [Function.iterate_zero, id_eq, uniStart, sqrt_real, abs_real, meanAt, mean_anomaly_elps]
    rw [abs_of_pos (by positivity), h3, Real.sqrt_div hmu.le, Real.sqrt_sq (by positivity)]
    have h2 : aOf r v mu = Real.sqrt (aOf r v mu) ^ 2 := (Real.sq_sqrt ha.le).symm
    rw [show (1 : ℝ) / aOf r v mu = 1 / Real.sqrt (aOf r v mu) ^ 2 by rw [← h2]]
    field_simp
    ring
  | succ k ih =>
    rw [Function.iterate_succ_apply', Function.iterate_succ_apply', ih]
    set E := (newtonElps (meanAt r v mu E0 t) (eOf r v mu))^[k] (meanAt r v mu E0 t + eOf r v mu * Real.sin E0)
    obtain ⟨h1, h2⟩ := C53_elliptic_equation hmu ha hE0 t E
    rw [newtonUni, h1, h2, newtonElps, ← meanAt]
    have h4 : aOf r v mu = Real.sqrt (aOf r v mu) ^ 2 := (Real.sq_sqrt ha.le).symm
    rw [show Real.sqrt (aOf r v mu) ^ 3 * kepler_equ_elps E (eOf r v mu) (meanAt r v mu E0 t)
        / (aOf r v mu * dE E (eOf r v mu))
        = Real.sqrt (aOf r v mu) * (kepler_equ_elps E (eOf r v mu) (meanAt r v mu E0 t) / dE E (eOf r v mu)) by
      rw [show aOf r v mu * dE E (eOf r v mu) = Real.sqrt (aOf r v mu) ^ 2 * dE E (eOf r v mu) by rw [← h4]]
      rw [show Real.sqrt (aOf r v mu) ^ 3 * kepler_equ_elps E (eOf r v mu) (meanAt r v mu E0 t)
        = Real.sqrt (aOf r v mu) ^ 2 * (Real.sqrt (aOf r v mu) *
          kepler_equ_elps E (eOf r v mu) (meanAt r v mu E0 t)) by ring,
        mul_div_mul_left _ _ (pow_ne_zero 2 hb.ne'), mul_div_assoc]]
    ring

/-! ### where the default settings work -/

/-- The first step. -/
theorem uni_first_step {e : ℝ} (h0 : 0 ≤ e) (h1 : e ≤ 11 / 20) (M E0 : ℝ) :
    |newtonElps M e (M + e * Real.sin E0) - (M + e * Real.sin E0)| ≤ 3943 / 2500 := by
  set x := M + e * Real.sin E0 with hx
  have hd : 0 < dE x e := by linarith [dE_ge h0 x]
  have hf : |kepler_equ_elps x e M| ≤ e * (1 + |Real.sin x|) := by
    rw [kep_elps_eq, show x - e * Real.sin x - M = e * (Real.sin E0 - Real.sin x) by rw [hx]; ring,
      abs_mul, abs_of_nonneg h0]
    refine mul_le_mul_of_nonneg_left ?_ h0
    exact (abs_sub _ _).trans (by linarith [Real.abs_sin_le_one E0])
  have hcs : (1 + |Real.sin x|) * (1 - e ^ 2) ≤ 2 * dE x e := by
    rw [dE_eq]
    have hsq : |Real.sin x| ^ 2 + Real.cos x ^ 2 = 1 := by rw [sq_abs]; exact Real.sin_sq_add_cos_sq x
    nlinarith [sq_nonneg (2 * e * |Real.sin x| - (1 - e ^ 2) * Real.cos x), sq_nonneg e,
      abs_le_of_sq_le_sq' (a := 2 * e * Real.cos x + (1 - e ^ 2) * |Real.sin x|) (b := 1 + e ^ 2)
        (by nlinarith [sq_nonneg (2 * e * |Real.sin x| - (1 - e ^ 2) * Real.cos x)]) (by positivity)]
  have he : 0 < 1 - e ^ 2 := by nlinarith
  rw [newtonElps, show x - kepler_equ_elps x e M / dE x e - x = -(kepler_equ_elps x e M / dE x e) by ring,
    abs_neg, abs_div, abs_of_pos hd, div_le_iff₀ hd]
  refine hf.trans ?_
  have hee : e ≤ 3943 / 5000 * (1 - e ^ 2) := by nlinarith
  have : e * (1 + |Real.sin x|) ≤ 3943 / 5000 * ((1 + |Real.sin x|) * (1 - e ^ 2)) := by
    have := mul_le_mul_of_nonneg_right hee (by positivity : 0 ≤ 1 + |Real.sin x|)
    linarith
  linarith

/-- Newton steps from `M + e sin E0` shrink doubly exponentially for `e ≤ 11/20`. -/
theorem uni_steps_shrink {e : ℝ} (h0 : 0 ≤ e) (h1 : e ≤ 11 / 20) (M E0 : ℝ) (k : ℕ) :
    |(newtonElps M e)^[k + 1] (M + e * Real.sin E0) - (newtonElps M e)^[k] (M + e * Real.sin E0)|
      ≤ 18 / 11 * (241 / 250 : ℝ) ^ 2 ^ k := by
  have h1' : e < 1 := by linarith
  induction k with
  | zero =>
    simp only [pow_zero, pow_one, zero_add, Function.iterate_one, Function.iterate_zero, id_eq]
    refine (uni_first_step h0 h1 M E0).trans (by norm_num)
  | succ k ih =>
    rw [Function.iterate_succ_apply' _ (k + 1)]
    refine (elps_newton_step h0 h1' M _).trans ?_
    rw [div_le_iff₀ (by linarith)]
    rw [Function.iterate_succ_apply'] at ih ⊢
    refine (elps_newton_residual h0 h1' M _).trans ?_
    set s := newtonElps M e ((newtonElps M e)^[k] (M + e * Real.sin E0))
      - (newtonElps M e)^[k] (M + e * Real.sin E0)
    have hsq : s ^ 2 ≤ (18 / 11 * (241 / 250 : ℝ) ^ 2 ^ k) ^ 2 := by
      rw [← sq_abs]; exact pow_le_pow_left₀ (abs_nonneg _) ih 2
    have hexp : (241 / 250 : ℝ) ^ 2 ^ (k + 1) = ((241 / 250 : ℝ) ^ 2 ^ k) ^ 2 := by
      rw [← pow_mul, pow_succ]
    rw [hexp]
    set T := (241 / 250 : ℝ) ^ 2 ^ k
    have hT : 0 ≤ T ^ 2 := sq_nonneg T
    nlinarith [sq_nonneg s]

/-- The residuals, in units of `a^(3/2)`. -/
theorem uni_residuals {e : ℝ} (h0 : 0 ≤ e) (h1 : e ≤ 11 / 20) (M E0 : ℝ) (k : ℕ) :
    |kepler_equ_elps ((newtonElps M e)^[k + 1] (M + e * Real.sin E0)) e M| ≤ (241 / 250 : ℝ) ^ 2 ^ (k + 1) := by
  have ih := uni_steps_shrink h0 h1 M E0 k
  rw [Function.iterate_succ_apply'] at ih ⊢
  refine (elps_newton_residual h0 (by linarith) M _).trans ?_
  set s := newtonElps M e ((newtonElps M e)^[k] (M + e * Real.sin E0))
    - (newtonElps M e)^[k] (M + e * Real.sin E0)
  have hsq : s ^ 2 ≤ (18 / 11 * (241 / 250 : ℝ) ^ 2 ^ k) ^ 2 := by
    rw [← sq_abs]; exact pow_le_pow_left₀ (abs_nonneg _) ih 2
  have hexp : (241 / 250 : ℝ) ^ 2 ^ (k + 1) = ((241 / 250 : ℝ) ^ 2 ^ k) ^ 2 := by
    rw [← pow_mul, pow_succ]
  rw [hexp]
  set T := (241 / 250 : ℝ) ^ 2 ^ k
  have hT : 0 ≤ T ^ 2 := sq_nonneg T
  nlinarith [sq_nonneg s]

/-- C55, the part that holds: on every ellipse with eccentricity at most `11/20` and `a^(3/2) ≤ 10^300`, for every
time of flight and every phase, the default root search (50 iterations; 15 suffice) meets its tolerance.
Missing from the full claim: larger eccentricities (false near 1 by `C55_elliptic_refuted`). -/
theorem C55_elliptic_default_partial (hmu : 0 < mu) (hh : angular_momentum r v ≠ ⟨0, 0, 0⟩)
    (ha : 0 < aOf r v mu) (he : eOf r v mu ≤ 11 / 20) (hsize : Real.sqrt (aOf r v mu) ^ 3 ≤ 10 ^ 300)
    (t : ℝ) (max_iter : ℕ := 50) (hn : 15 ≤ max_iter) :
    ∃ χ, solve_kepler_uni t (1 / aOf r v mu) (V3.norm r) (sigma_fn r v mu) mu defaultTol max_iter = some χ ∧
      |kepler_equ_uni χ (1 / aOf r v mu) (V3.norm r) (sigma_fn r v mu) t mu| ≤ 1 / 1000000 := by
  have htol : (defaultTol : ℝ) = 1 / 1000000 := by norm_num [defaultTol]
  have hb : 0 < Real.sqrt (aOf r v mu) := Real.sqrt_pos.2 ha
  have he0 : 0 ≤ eOf r v mu := norm_nonneg _
  obtain ⟨E0, -, -, hE0⟩ := C53_eccentric_exists hmu hh ha
  obtain ⟨k, hk, -, hs, -, hstop⟩ := C13_uni t (1 / aOf r v mu) (V3.norm r) (sigma_fn r v mu) mu defaultTol max_iter
  refine ⟨_, hs, ?_⟩
  rcases hk.lt_or_eq with h | h
  · have := hstop h
    simp only [lt_real, abs_real, decide_eq_false_iff_not, not_lt, htol] at this
    exact this
  · rw [C55_elliptic_newton hmu ha hE0, (C53_elliptic_equation hmu ha hE0 t _).1, ← meanAt]
    obtain ⟨n, rfl⟩ : ∃ n, k = n + 1 := ⟨k - 1, by omega⟩
    have hres := uni_residuals he0 he (meanAt r v mu E0 t) E0 n
    rw [abs_mul, abs_of_pos (by positivity)]
    have h64 : (241 / 250 : ℝ) ^ 64 ≤ 1 / 10 := by norm_num
    have hsmall : (241 / 250 : ℝ) ^ 2 ^ (n + 1) ≤ (1 / 10) ^ 306 := by
      calc (241 / 250 : ℝ) ^ 2 ^ (n + 1) ≤ (241 / 250 : ℝ) ^ (64 * 306) := by
            refine pow_le_pow_of_le_one (by norm_num) (by norm_num) ?_
            calc 64 * 306 ≤ 2 ^ 15 := by norm_num
              _ ≤ 2 ^ (n + 1) := Nat.pow_le_pow_right (by norm_num) (by omega)
        _ = ((241 / 250 : ℝ) ^ 64) ^ 306 := by rw [pow_mul]
        _ ≤ (1 / 10) ^ 306 := pow_le_pow_left₀ (by positivity) h64 306
    calc Real.sqrt (aOf r v mu) ^ 3 * |kepler_equ_elps _ _ _| ≤ 10 ^ 300 * (1 / 10) ^ 306 :=
          mul_le_mul hsize (hres.trans hsmall) (abs_nonneg _) (by positivity)
      _ = 1 / 1000000 := by
          rw [show (306 : ℕ) = 300 + 6 by norm_num, pow_add, ← mul_assoc, ← mul_pow]; norm_num

/-! ### where they do not -/

/-- Close to a root for `M ∈ [0.01, π]` the derivative is not small, even at eccentricity `0.999999`. -/
theorem dE_near_root {M x : ℝ} (hM1 : 1 / 100 ≤ M) (hM2 : M ≤ Real.pi)
    (hx : |kepler_equ_elps x badE M| ≤ 1 / 1000000) : 1 / 100 ≤ dE x badE := by
  by_contra hd
  push Not at hd
  have hp := Real.pi_lt_d2
  have hp' := Real.pi_gt_d2
  rw [dE_eq, badE] at hd
  rw [kep_elps_eq, badE, abs_le] at hx
  have hc : 98 / 100 < Real.cos x := by linarith
  have hs2 : Real.sin x ^ 2 ≤ 4 / 100 := by
    have := Real.sin_sq_add_cos_sq x
    nlinarith
  have hs := abs_le_of_sq_le_sq' (a := Real.sin x) (b := 1 / 5) (by linarith) (by norm_num)
  have hx1 : -(1 / 5) ≤ x := by linarith [hs.1]
  have hx2 : x ≤ 7 / 2 := by linarith [hs.2]
  -- `x` is small
  have hx3 : x ≤ 1 / 4 := by
    by_contra h
    push Not at h
    rcases le_or_gt x Real.pi with h2 | h2
    · have h3 : Real.cos x ≤ Real.cos (1 / 4) :=
        Real.cos_le_cos_of_nonneg_of_le_pi (by norm_num) h2 h.le
      have h5 : Real.cos (1 / 4) ≤ 97 / 100 := by
        have h6 := Real.cos_bound (x := 1 / 4) (by rw [abs_of_pos] <;> norm_num)
        have := (abs_le.1 h6).2
        rw [abs_of_pos (by norm_num : (0 : ℝ) < 1 / 4)] at this
        norm_num at this ⊢
        linarith
      linarith
    · have : Real.cos x ≤ 0 := Real.cos_nonpos_of_pi_div_two_le_of_le (by linarith) (by linarith)
      linarith
  have hsb := Real.sin_bound (x := x) (by rw [abs_le]; constructor <;> linarith)
  have h1 := (abs_le.1 hsb).1
  have hxa : |x| ≤ 1 / 4 := by rw [abs_le]; constructor <;> linarith
  have hx5 : |x| ^ 5 ≤ (1 / 4) ^ 5 := pow_le_pow_left₀ (abs_nonneg _) hxa 5
  have hx3' : x ^ 3 ≤ (1 / 4) ^ 3 := by
    calc x ^ 3 ≤ |x ^ 3| := le_abs_self _
      _ = |x| ^ 3 := abs_pow _ _
      _ ≤ (1 / 4) ^ 3 := pow_le_pow_left₀ (abs_nonneg _) hxa 3
  norm_num at hx5 hx3'
  linarith [hx.1, hs.2]

/-- Once the tolerance is met all later Newton iterates meet it. -/
theorem uni_stay {M x : ℝ} (hM1 : 1 / 100 ≤ M) (hM2 : M ≤ Real.pi)
    (hx : |kepler_equ_elps x badE M| ≤ 1 / 1000000) (j : ℕ) :
    |kepler_equ_elps ((newtonElps M badE)^[j] x) badE M| ≤ 1 / 1000000 := by
  induction j with
  | zero => exact hx
  | succ j ih =>
    have h0 : (0 : ℝ) ≤ badE := by norm_num [badE]
    have h1 : badE < 1 := by norm_num [badE]
    rw [Function.iterate_succ_apply']
    set y := (newtonElps M badE)^[j] x
    refine (elps_newton_residual h0 h1 M y).trans ?_
    have hd := dE_near_root hM1 hM2 ih
    have hs : |newtonElps M badE y - y| ≤ 1 / 10000 := by
      rw [newtonElps, show y - kepler_equ_elps y badE M / dE y badE - y
        = -(kepler_equ_elps y badE M / dE y badE) by ring, abs_neg, abs_div,
        abs_of_pos (by linarith : 0 < dE y badE), div_le_iff₀ (by linarith)]
      linarith
    have hsq : (newtonElps M badE y - y) ^ 2 ≤ (1 / 10000) ^ 2 := by
      rw [← sq_abs]; exact pow_le_pow_left₀ (abs_nonneg _) hs 2
    nlinarith

/-- The first Newton step from `E = M = 1/100` overshoots past `2π`. -/
theorem uniIter_one_large : 2 * Real.pi ≤ newtonElps (1 / 100) badE (1 / 100) := by
  have hp := Real.pi_lt_d2
  have he0 : (0 : ℝ) ≤ badE := by norm_num [badE]
  have hsin := Real.sin_gt_sub_cube (x := 1 / 100) (by norm_num)
  have hcos := Real.one_sub_sq_div_two_le_cos (x := 1 / 100)
  have hd : dE (1 / 100) badE ≤ 52 / 1000000 := by
    rw [dE_eq, badE]; norm_num at hcos ⊢; linarith
  have hdpos : 0 < dE (1 / 100) badE := by
    have := dE_ge he0 (1 / 100); have : badE < 1 := by norm_num [badE]
    linarith
  have hf : kepler_equ_elps (1 / 100) badE (1 / 100) ≤ -(99 / 10000) := by
    rw [kep_elps_eq, badE]; norm_num at hsin ⊢; linarith
  rw [newtonElps]
  have : 20 ≤ -kepler_equ_elps (1 / 100) badE (1 / 100) / dE (1 / 100) badE := by
    rw [le_div_iff₀ hdpos]; linarith
  rw [neg_div] at this
  linarith

/-- The counterexample starts at the periapsis of the orbit with `mu = 1`, `a = 1`, `e = 0.999999`. -/
noncomputable def badR : V3 ℝ := ⟨1 - badE, 0, 0⟩
noncomputable def badV : V3 ℝ := ⟨0, Real.sqrt ((1 + badE) / (1 - badE)), 0⟩

theorem bad_norm : V3.norm badR = 1 - badE := by
  rw [norm_unfold, badR]
  simp only [ne_eq, OfNat.ofNat_ne_zero, not_false_eq_true, zero_pow, add_zero]
  exact Real.sqrt_sq (by norm_num [badE])

theorem bad_normV : V3.norm badV ^ 2 = (1 + badE) / (1 - badE) := by
  rw [norm_unfold, badV]
  simp only [ne_eq, OfNat.ofNat_ne_zero, not_false_eq_true, zero_pow, add_zero, zero_add]
  rw [Real.sqrt_sq (Real.sqrt_nonneg _), Real.sq_sqrt (by norm_num [badE])]

theorem bad_h : angular_momentum badR badV ≠ ⟨0, 0, 0⟩ := by
  intro h
  have := congrArg V3.z h
  simp only [angular_momentum, V3.cross, badR, badV, mul_zero, sub_zero, mul_eq_zero] at this
  have h1 : (0 : ℝ) < 1 - badE := by norm_num [badE]
  have h2 : (0 : ℝ) < Real.sqrt ((1 + badE) / (1 - badE)) := Real.sqrt_pos.2 (by norm_num [badE])
  rcases this with h | h <;> linarith

theorem bad_a : aOf badR badV 1 = 1 := by
  have h1 : (1 : ℝ) - badE ≠ 0 := by norm_num [badE]
  simp only [aOf, semimajor_axis, bad_norm, bad_normV, Nat.cast_ofNat, Nat.cast_one, div_one]
  rw [← sub_div, show 2 - (1 + badE) = 1 - badE by ring, div_self h1, div_one]

theorem bad_sigma : sigma_fn badR badV 1 = 0 := by
  have := sigma_rv (r := badR) (v := badV) (mu := 1) one_pos
  simp only [V3.dot, badR, badV, mul_zero, zero_mul, add_zero, Real.sqrt_one, one_mul] at this
  exact this.symm

theorem bad_e : eOf badR badV 1 = badE := by
  have h1 := pOf_inv (r := badR) (v := badV) (mu := 1) one_pos bad_h
  have h2 := pOf_alpha (r := badR) (v := badV) (mu := 1) one_pos bad_h
  have h3 : alphaOf badR badV 1 = 1 := by
    have : alphaOf badR badV 1 = 1 / aOf badR badV 1 := rfl
    rw [this, bad_a, div_one]
  rw [h3, bad_norm, bad_sigma] at h1
  rw [h3, ← h1] at h2
  have h4 : eOf badR badV 1 ^ 2 = badE ^ 2 := by linear_combination h2
  exact (pow_left_inj₀ (V3.norm_nonneg _) (by norm_num [badE]) two_ne_zero).1 h4

theorem bad_ecc : IsEccentric 1 (aOf badR badV 1) (eOf badR badV 1) badR badV 0 := by
  rw [isEccentric_iff one_pos (by rw [bad_a]; exact one_pos), bad_norm, bad_sigma, bad_a, bad_e]
  simp

/-- C55 is false near the parabola: on the ellipse `mu = a = 1`, `e = 0.999999`, from periapsis, *whatever* the
iteration limit there is a time of flight in `[0.01, π]` (within half a period) for which `solve_kepler_uni` with
the default tolerance `1e-6` returns a value of residual at least `0.01`. -/
theorem C55_elliptic_refuted (max_iter : ℕ) (hn : 1 ≤ max_iter) :
    ∃ t ∈ Set.Icc (1 / 100 : ℝ) Real.pi, ∃ χ,
      solve_kepler_uni t (1 / aOf badR badV 1) (V3.norm badR) (sigma_fn badR badV 1) 1 defaultTol max_iter = some χ ∧
      1 / 100 ≤ |kepler_equ_uni χ (1 / aOf badR badV 1) (V3.norm badR) (sigma_fn badR badV 1) t 1| := by
  obtain ⟨n, rfl⟩ : ∃ n, max_iter = n + 1 := ⟨max_iter - 1, by omega⟩
  obtain ⟨M, hM, k, hk⟩ := badIter_hits (S := fun M => M) continuous_id rfl uniIter_one_large n
  have hp2 := Real.pi_lt_d2
  have hp := Real.pi_gt_d2
  have ha : 0 < aOf badR badV 1 := by rw [bad_a]; exact one_pos
  have hMean : meanAt badR badV 1 0 M = M := by
    rw [meanAt, bad_e, bad_a]; simp [mean_anomaly_elps]
  have hiter : ∀ j, |kepler_equ_uni ((newtonUni M (1 / aOf badR badV 1) (V3.norm badR) (sigma_fn badR badV 1) 1)^[j]
      (uniStart M (1 / aOf badR badV 1) 1)) (1 / aOf badR badV 1) (V3.norm badR) (sigma_fn badR badV 1) M 1|
      = |kepler_equ_elps ((newtonElps M badE)^[j] M) badE M| := by
    intro j
    rw [C55_elliptic_newton one_pos ha bad_ecc, (C53_elliptic_equation one_pos ha bad_ecc M _).1, ← meanAt, hMean,
      bad_e, bad_a]
    simp
  have hres : 1 / 100 ≤ |kepler_equ_elps ((newtonElps M badE)^[n + 1] M) badE M| := by
    rw [hk, kep_elps_eq]
    have hs : Real.sin (2 * Real.pi * k) = 0 := by
      rw [show 2 * Real.pi * (k : ℝ) = ((2 * k : ℤ) : ℝ) * Real.pi by push_cast; ring]
      exact Real.sin_int_mul_pi _
    rw [hs]
    rcases le_or_gt k 0 with hk0 | hk0
    · have hkr : (k : ℝ) ≤ 0 := by exact_mod_cast hk0
      rw [abs_of_nonpos (by nlinarith [hM.1])]
      nlinarith [hM.1]
    · have hkr : (1 : ℝ) ≤ k := by exact_mod_cast hk0
      rw [abs_of_nonneg (by nlinarith [hM.2])]
      nlinarith [hM.2]
  obtain ⟨j, hj, -, hs, -, hstop⟩ := C13_uni M (1 / aOf badR badV 1) (V3.norm badR) (sigma_fn badR badV 1) 1 defaultTol (n + 1)
  refine ⟨M, hM, _, hs, ?_⟩
  rw [hiter]
  rcases hj.lt_or_eq with h | h
  · have h3 := hstop h
    simp only [lt_real, abs_real, decide_eq_false_iff_not, not_lt] at h3
    rw [hiter] at h3
    have htol : (defaultTol : ℝ) = 1 / 1000000 := by norm_num [defaultTol]
    rw [htol] at h3
    have h4 := uni_stay hM.1 hM.2 h3 (n + 1 - j)
    rw [← Function.iterate_add_apply, show n + 1 - j + j = n + 1 by omega] at h4
    linarith
  · rw [h]; exact hres

/-- C55, `kepler` itself: from the same state, for some time `t ∈ [0.01, π]`, the default call returns the exact
state of a *different* time, off by at least `0.01`. -/
theorem C55_kepler_refuted : ∃ t ∈ Set.Icc (1 / 100 : ℝ) Real.pi, ∃ r' v' t',
    kepler [t] badR badV 1 = some ([r'], [v']) ∧ (r', v') = exactProp badR badV 1 t' ∧ 1 / 100 ≤ |t' - t| := by
  obtain ⟨t, ht, χ, hχ, hres⟩ := C55_elliptic_refuted 50 (by norm_num)
  obtain ⟨⟨rs, vs⟩, hk⟩ : ∃ p, kepler [t] badR badV 1 = some p := ⟨_, kepler_eq_map ..⟩
  have hlen : rs.length = 1 ∧ vs.length = 1 := by
    rw [kepler_eq_map] at hk
    obtain ⟨rfl, rfl⟩ := Prod.mk.inj (Option.some.inj hk)
    simp
  obtain ⟨r', rfl⟩ := List.length_eq_one_iff.1 hlen.1
  obtain ⟨v', rfl⟩ := List.length_eq_one_iff.1 hlen.2
  obtain ⟨t1, χ1, t', h1, h2, h3, h4, -⟩ := C23_exact_up_to_time (r := badR) (v := badV) one_pos bad_h hk
    (i := 0) (r' := r') (v' := v') rfl rfl
  obtain rfl : t = t1 := by simpa using h1
  have h5 : solve_kepler_uni t (alphaOf badR badV 1) (V3.norm badR) (sigma_fn badR badV 1) 1 defaultTol 50 = some χ := hχ
  obtain rfl : χ = χ1 := Option.some.inj (h5.symm.trans h2)
  refine ⟨t, ht, r', v', t', hk, h4, ?_⟩
  rw [h3, Real.sqrt_one, div_one, add_sub_cancel_left]
  exact hres

/-- C55, `kepler` where it works: on ellipses with `e ≤ 11/20` every row of the default call is the exact state at
a time within `1e-6 / √mu` of the requested one. -/
theorem C55_kepler_default_partial (hmu : 0 < mu) (hh : angular_momentum r v ≠ ⟨0, 0, 0⟩)
    (ha : 0 < aOf r v mu) (he : eOf r v mu ≤ 11 / 20) (hsize : Real.sqrt (aOf r v mu) ^ 3 ≤ 10 ^ 300)
    {ts : List ℝ} {rs vs : List (V3 ℝ)} (hk : kepler ts r v mu = some (rs, vs)) {i : ℕ} {r' v' : V3 ℝ}
    (hr' : rs[i]? = some r') (hv' : vs[i]? = some v') :
    ∃ t t', ts[i]? = some t ∧ |t' - t| ≤ 1 / 1000000 / Real.sqrt mu ∧ (r', v') = exactProp r v mu t' := by
  obtain ⟨t, χ, t', h1, h2, h3, h4, -⟩ := C23_exact_up_to_time hmu hh hk hr' hv'
  obtain ⟨χ', h5, h6⟩ := C55_elliptic_default_partial hmu hh ha he hsize t 50 (by norm_num)
  have h7 : solve_kepler_uni t (alphaOf r v mu) (V3.norm r) (sigma_fn r v mu) mu defaultTol 50 = some χ' := h5
  obtain rfl : χ' = χ := Option.some.inj (h7.symm.trans h2)
  refine ⟨t, t', h1, ?_, h4⟩
  rw [h3, add_sub_cancel_left, abs_div, abs_of_pos (Real.sqrt_pos.2 hmu)]
  exact div_le_div_of_nonneg_right h6 (Real.sqrt_nonneg _)

/-- A circular orbit meets the hypotheses. -/
example : angular_momentum (⟨1, 0, 0⟩ : V3 ℝ) ⟨0, 1, 0⟩ ≠ ⟨0, 0, 0⟩ ∧ 0 < aOf ⟨1, 0, 0⟩ ⟨0, 1, 0⟩ 1 ∧
    eOf ⟨1, 0, 0⟩ ⟨0, 1, 0⟩ 1 ≤ 11 / 20 ∧ Real.sqrt (aOf ⟨1, 0, 0⟩ ⟨0, 1, 0⟩ 1) ^ 3 ≤ 10 ^ 300 := by
  have h : angular_momentum (⟨1, 0, 0⟩ : V3 ℝ) ⟨0, 1, 0⟩ ≠ ⟨0, 0, 0⟩ := by simp [angular_momentum, V3.cross]
  have h1 := pOf_inv (r := ⟨1, 0, 0⟩) (v := ⟨0, 1, 0⟩) (mu := 1) one_pos h
  have h2 := pOf_alpha (r := ⟨1, 0, 0⟩) (v := ⟨0, 1, 0⟩) (mu := 1) one_pos h
  have hn : V3.norm (⟨1, 0, 0⟩ : V3 ℝ) = 1 := by rw [norm_unfold]; simp
  have hn' : V3.norm (⟨0, 1, 0⟩ : V3 ℝ) = 1 := by rw [norm_unfold]; simp
  have ha : aOf ⟨1, 0, 0⟩ ⟨0, 1, 0⟩ 1 = 1 := by
    simp only [aOf, semimajor_axis, hn, hn', Nat.cast_ofNat, Nat.cast_one]; norm_num
  have hs : sigma_fn (⟨1, 0, 0⟩ : V3 ℝ) ⟨0, 1, 0⟩ 1 = 0 := by
    have := sigma_rv (r := ⟨1, 0, 0⟩) (v := ⟨0, 1, 0⟩) (mu := 1) one_pos
    simp only [V3.dot, mul_zero, add_zero, Real.sqrt_one, one_mul, mul_one] at this
    exact this.symm
  have hα : alphaOf (⟨1, 0, 0⟩ : V3 ℝ) ⟨0, 1, 0⟩ 1 = 1 := by
    have : alphaOf (⟨1, 0, 0⟩ : V3 ℝ) ⟨0, 1, 0⟩ 1 = 1 / aOf ⟨1, 0, 0⟩ ⟨0, 1, 0⟩ 1 := rfl
    rw [this, ha, div_one]
  rw [hα, hn, hs] at h1
  rw [hα, ← h1] at h2
  have he : eOf (⟨1, 0, 0⟩ : V3 ℝ) ⟨0, 1, 0⟩ 1 = 0 := by
    have : eOf (⟨1, 0, 0⟩ : V3 ℝ) ⟨0, 1, 0⟩ 1 ^ 2 = 0 := by linarith
    exact pow_eq_zero_iff two_ne_zero |>.1 this
  refine ⟨h, by rw [ha]; exact one_pos, by rw [he]; norm_num, ?_⟩
  rw [ha, Real.sqrt_one, one_pow]
  exact one_le_pow₀ (by norm_num)

end Adx
