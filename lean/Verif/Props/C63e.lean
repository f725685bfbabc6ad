import Verif.Props.C63d

/-! # C63, continued: the hyperbolic solver along arbitrary curves of arguments

Derivatives of the solution with respect to the eccentricity as well, for `e ≥ 2`. -/

namespace Adx
open Spec V3 Set

section step
variable {e N x : ℝ}

/-- The size of tangent times slope is kept by a step to the left also with an inhomogeneous term up to `m`. -/
theorem hypb_tangent_keep' (he : 1 < e) (hN : 0 ≤ N) (hx : 0 ≤ x) (hf : 0 ≤ e * Real.sinh x - x - N) {m g T : ℝ}
    (hm : 0 < m) (hg : |g| ≤ m) (hT : |T| * (e * Real.cosh x - 1) ≤ 2 * m) :
    |(g + hypbStep N e x * (e * Real.sinh x) * T) / (e * Real.cosh x - 1)|
      * (e * Real.cosh (x - hypbStep N e x) - 1) ≤ 2 * m := by
  have hp : 0 < e * Real.cosh x - 1 := by linarith [hypb_den_pos he x]
  have hX : 0 ≤ Real.sinh x := Real.sinh_nonneg_iff.2 hx
  have hs := hypbStep_nonneg (N := N) he hf
  have hk := hypb_tangent_keep (T := |T| / m) he hN hx hf le_rfl (by
    rw [abs_div, abs_abs, abs_of_pos hm, div_mul_eq_mul_div, div_le_iff₀ hm]
    exact hT)
  have hq : 0 ≤ e * Real.cosh (x - hypbStep N e x) - 1 := by linarith [hypb_den_pos he (x - hypbStep N e x)]
  have h0 : 0 ≤ hypbStep N e x * (e * Real.sinh x) := by positivity
  set A := hypbStep N e x * (e * Real.sinh x) with hA
  have h1 : |(g + A * T) / (e * Real.cosh x - 1)| ≤ m * |(1 + A * (|T| / m)) / (e * Real.cosh x - 1)| := by
    rw [abs_div, abs_div, abs_of_pos hp, mul_div_assoc']
    have : |g + A * T| ≤ m * |1 + A * (|T| / m)| := by
      rw [abs_of_nonneg (by positivity : 0 ≤ 1 + A * (|T| / m))]
      have e1 : m * (1 + A * (|T| / m)) = m + A * |T| := by field_simp
      rw [e1]
      refine (abs_add_le _ _).trans ?_
      rw [abs_mul, abs_of_nonneg h0]
      linarith
    gcongr
  calc _ ≤ m * |(1 + A * (|T| / m)) / (e * Real.cosh x - 1)| * (e * Real.cosh (x - hypbStep N e x) - 1) := by gcongr
    _ = m * (|(1 + A * (|T| / m)) / (e * Real.cosh x - 1)| * (e * Real.cosh (x - hypbStep N e x) - 1)) := by ring
    _ ≤ m * 2 := by gcongr
    _ = _ := by ring

/-- The last step with an inhomogeneous term `g` close to `g₀`. -/
theorem hypb_tangent_last' (he : 1 < e) (hN : 0 ≤ N) (hx : 0 ≤ x) (hf : 0 ≤ e * Real.sinh x - x - N) {c g g₀ ε T r tol : ℝ}
    (hT : |T| * (e * Real.cosh x - 1) ≤ c) (hg : |g - g₀| ≤ ε) (hr : e * Real.sinh r - r = N)
    (hy : e * Real.sinh (x - hypbStep N e x) - (x - hypbStep N e x) - N ≤ tol) :
    |(g + hypbStep N e x * (e * Real.sinh x) * T) / (e * Real.cosh x - 1) * (e * Real.cosh r - 1) - g₀|
      ≤ c * hypbKappa e tol + (hypbKappa e tol + hypbKappa e tol ^ 2 / 4) * |g₀| + ε := by
  have hp : 0 < e * Real.cosh x - 1 := by linarith [hypb_den_pos he x]
  have hX : 0 ≤ Real.sinh x := Real.sinh_nonneg_iff.2 hx
  have hy0 := hypb_residual_nonneg he hN hx
  have htol : 0 ≤ tol := hy0.trans hy
  have hθ := hypb_theta_le he hN hx htol hy
  have hk := hypbKappa_nonneg e tol
  have hr0 := hypb_root_nonneg he hr hN
  have hrx := hypb_root_le he hr hf
  have h1 := hypb_tangent_last (T := 0) (c := 0) he hN hx hf (by simp) hr hy
  have h0 : 0 ≤ hypbStep N e x := hypbStep_nonneg he hf
  rw [abs_of_nonneg h0] at hθ
  set κ := hypbKappa e tol
  set A := hypbStep N e x * (e * Real.sinh x) with hA
  set p := e * Real.cosh x - 1 with hpdef
  set q := e * Real.cosh r - 1 with hqdef
  have hA0 : 0 ≤ A := by positivity
  have hq0 : 0 ≤ q := by linarith [hypb_den_pos he r]
  have hqp : q ≤ p := by
    have : Real.cosh r ≤ Real.cosh x := Real.cosh_le_cosh.2 (by rw [abs_of_nonneg hr0, abs_of_nonneg hx]; exact hrx)
    rw [hpdef, hqdef]; nlinarith
  have hq1 : q / p ≤ 1 := (div_le_one hp).2 hqp
  have hqn : 0 ≤ q / p := div_nonneg hq0 hp.le
  have h2 : |1 / p * q - 1| ≤ κ + κ ^ 2 / 4 := by simpa using h1
  have e1 : (g + A * T) / p * q - g₀ = (g - g₀) * (q / p) + g₀ * (1 / p * q - 1) + A / p * (T * p) * (q / p) := by
    field_simp; ring
  have hθ' : A / p ≤ κ := (div_le_iff₀ hp).2 hθ
  have hε : 0 ≤ ε := (abs_nonneg _).trans hg
  have b1 : |(g - g₀) * (q / p)| ≤ ε := by
    rw [abs_mul, abs_of_nonneg hqn]
    calc |g - g₀| * (q / p) ≤ ε * 1 := by gcongr
      _ = ε := mul_one _
  have b2 : |g₀ * (1 / p * q - 1)| ≤ (κ + κ ^ 2 / 4) * |g₀| := by
    rw [abs_mul, mul_comm]
    gcongr
  have b3 : |A / p * (T * p) * (q / p)| ≤ c * κ := by
    rw [abs_mul, abs_mul, abs_mul, abs_of_nonneg hqn, abs_of_pos hp, abs_of_nonneg (by positivity : 0 ≤ A / p)]
    have hc0 : 0 ≤ c := le_trans (by positivity) hT
    calc A / p * (|T| * p) * (q / p) ≤ κ * c * 1 := by gcongr
      _ = _ := by ring
  rw [e1]
  calc _ ≤ |(g - g₀) * (q / p)| + |g₀ * (1 / p * q - 1)| + |A / p * (T * p) * (q / p)| := abs_add_three _ _ _
    _ ≤ _ := by linarith

end step

section iter
variable {e : ℝ}

/-- The `k`-th iterate as a function of the eccentricity. -/
noncomputable def hypbIterE (N : ℝ) (k : ℕ) (e : ℝ) : ℝ := (newtonHypb N e)^[k] (hypbStart N e)

theorem hypbIterE_eq (N : ℝ) (k : ℕ) (e : ℝ) : hypbIterE N k e = hypbIter e k N := rfl

theorem hypbIterE_hasDerivAt (he : 1 < e) (k : ℕ) (N : ℝ) :
    HasDerivAt (hypbIterE N k)
      (Dual.dot ((newtonHypb (cst N) (⟨e, some 1⟩ : Dual ℝ))^[k] (hypbStart (cst N) ⟨e, some 1⟩))) e :=
  (C63_hypb_iterate (N := fun _ => N) (e := fun s => s) (Tracks.const N) (Tracks.var e) he k).deriv

theorem hypbIterE_neg (N : ℝ) (k : ℕ) (e : ℝ) : hypbIterE (-N) k e = -hypbIterE N k e := by
  rw [hypbIterE_eq, hypbIterE_eq, hypbIter_neg]

theorem hypbIterE_deriv_neg (N : ℝ) (k : ℕ) : deriv (hypbIterE (-N) k) e = -deriv (hypbIterE N k) e := by
  have : hypbIterE (-N) k = fun x => -hypbIterE N k x := by funext x; exact hypbIterE_neg N k x
  rw [this, deriv.fun_neg]

theorem hypbIterE_zero_deriv (he : 1 < e) (N : ℝ) :
    deriv (hypbIterE N 0) e * (e * Real.cosh (hypbIter e 0 N)) = -Real.sinh (hypbIter e 0 N) := by
  have h1 := (hypbIterE_hasDerivAt he 0 N).differentiableAt.hasDerivAt
  have h2 := (hasDerivAt_id' e).fun_mul h1.sinh
  have h3 : (fun x => x * Real.sinh (hypbIterE N 0 x)) =ᶠ[nhds e] fun _ => 2 * N := by
    filter_upwards [lt_mem_nhds he] with x hx
    exact C52_hypb (by linarith)
  have := h2.unique ((hasDerivAt_const e (2 * N)).congr_of_eventuallyEq h3)
  rw [hypbIterE_eq] at this
  linarith

/-- The tangent of a step with respect to the eccentricity. -/
theorem hypbIterE_succ_deriv (he : 1 < e) (k : ℕ) (N : ℝ) :
    deriv (hypbIterE N (k + 1)) e
      = (-((hypbIter e (k + 1) N + N) / e)
          + hypbStep N e (hypbIter e k N) * (e * Real.sinh (hypbIter e k N)) * deriv (hypbIterE N k) e)
        / (e * Real.cosh (hypbIter e k N) - 1) := by
  have h := (hypbIterE_hasDerivAt he k N).differentiableAt.hasDerivAt
  have hp : e * Real.cosh (hypbIterE N k e) - 1 ≠ 0 := by linarith [hypb_den_pos he (hypbIterE N k e)]
  have hi := hasDerivAt_id' e
  have h1 := h.fun_sub ((((hi.fun_mul h.sinh).fun_sub h).sub_const N).fun_div ((hi.fun_mul h.cosh).sub_const 1) hp)
  have h2 : (fun x => hypbIterE N k x - (x * Real.sinh (hypbIterE N k x) - hypbIterE N k x - N)
      / (x * Real.cosh (hypbIterE N k x) - 1)) = hypbIterE N (k + 1) := by
    funext x; rw [hypbIterE_eq N (k + 1), hypbIter_succ, hypbStep]; rfl
  rw [h2] at h1
  rw [h1.deriv, hypbIter_succ, hypbStep, ← hypbIterE_eq]
  field_simp
  ring

/-- Along a curve of arguments the derivative of an iterate is the combination of the two partial ones. -/
theorem hypbIter_curve {Nf ef : ℝ → ℝ} {s a b : ℝ} (hN : HasDerivAt Nf a s) (hef : HasDerivAt ef b s) (he : 1 < ef s)
    (k : ℕ) : HasDerivAt (fun x => hypbIter (ef x) k (Nf x))
      (a * deriv (hypbIter (ef s) k) (Nf s) + b * deriv (hypbIterE (Nf s) k) (ef s)) s := by
  induction k with
  | zero =>
    have t1 : Tracks Nf s ⟨Nf s, some a⟩ := ⟨rfl, hN⟩
    have t2 : Tracks ef s ⟨ef s, some b⟩ := ⟨rfl, hef⟩
    have h1 := (C63_hypb_iterate t1 t2 he 0).deriv.differentiableAt.hasDerivAt
    change HasDerivAt (fun x => hypbIter (ef x) 0 (Nf x)) _ s at h1
    have h2 := hef.fun_mul h1.sinh
    have h3 : (fun x => ef x * Real.sinh (hypbIter (ef x) 0 (Nf x))) =ᶠ[nhds s] fun x => 2 * Nf x := by
      filter_upwards [hef.continuousAt.eventually_const_lt he] with x hx
      exact C52_hypb (by linarith)
    have h4 := h2.unique ((hN.const_mul 2).congr_of_eventuallyEq h3)
    refine h1.congr_deriv ?_
    have h5 := hypbIter_zero_deriv he (Nf s)
    have h6 := hypbIterE_zero_deriv he (Nf s)
    have hpos : ef s * Real.cosh (hypbIter (ef s) 0 (Nf s)) ≠ 0 := by
      linarith [hypb_den_pos he (hypbIter (ef s) 0 (Nf s))]
    refine mul_right_cancel₀ hpos ?_
    linear_combination h4 - a * h5 - b * h6
  | succ k ih =>
    have hp : ef s * Real.cosh (hypbIter (ef s) k (Nf s)) - 1 ≠ 0 := by
      linarith [hypb_den_pos he (hypbIter (ef s) k (Nf s))]
    have h1 := ih.fun_sub ((((hef.fun_mul ih.sinh).fun_sub ih).fun_sub hN).fun_div ((hef.fun_mul ih.cosh).sub_const 1) hp)
    have h2 : (fun x => hypbIter (ef x) k (Nf x) - (ef x * Real.sinh (hypbIter (ef x) k (Nf x)) - hypbIter (ef x) k (Nf x)
        - Nf x) / (ef x * Real.cosh (hypbIter (ef x) k (Nf x)) - 1)) = fun x => hypbIter (ef x) (k + 1) (Nf x) := by
      funext x; rw [hypbIter_succ, hypbStep]
    rw [h2] at h1
    refine h1.congr_deriv ?_
    rw [hypbIter_succ_deriv he, hypbIterE_succ_deriv he, hypbIter_succ, hypbStep]
    have : ef s ≠ 0 := by linarith
    field_simp
    ring

/-- The derivative of the hyperbolic anomaly along a curve of arguments. -/
theorem hypb_root_curve {Nf ef Hs : ℝ → ℝ} {s a b : ℝ} (hN : HasDerivAt Nf a s) (hef : HasDerivAt ef b s) (he : 1 < ef s)
    (h : ∀ᶠ x in nhds s, kepler_equ_hypb (Hs x) (ef x) (Nf x) = 0) :
    HasDerivAt Hs ((a - b * Real.sinh (Hs s)) / (ef s * Real.cosh (Hs s) - 1)) s := by
  have h0 := h.self_of_nhds
  simp only [kep_hypb_eq] at h h0
  have hcont : ContinuousAt Hs s := by
    have hlt : ∀ᶠ x in nhds s, (1 + ef s) / 2 < ef x := hef.continuousAt.eventually_const_lt (by linarith)
    have hb : ∀ᶠ x in nhds s, ‖Hs x - Hs s‖ ≤ |(Nf x - Nf s) - (ef x - ef s) * Real.sinh (Hs s)| / ((ef s - 1) / 2) := by
      filter_upwards [hlt, h] with x hx hx0
      have := abs_sub_le_of_slope (f := fun H => ef x * Real.sinh H - H) (show 0 < (ef s - 1) / 2 by linarith)
        (fun y => ((Real.hasDerivAt_sinh y).const_mul (ef x)).sub (hasDerivAt_id' y))
        (fun y => by have := hypb_den_pos (by linarith : 1 < ef x) y; linarith) (Hs x) (Hs s)
      rw [Real.norm_eq_abs]
      convert this using 3
      linear_combination h0 - hx0
    refine tendsto_iff_norm_sub_tendsto_zero.2 (squeeze_zero' (.of_forall fun _ => norm_nonneg _) hb ?_)
    have h1 := ((hN.continuousAt.tendsto.sub_const (Nf s)).sub
      ((hef.continuousAt.tendsto.sub_const (ef s)).mul_const (Real.sinh (Hs s)))).abs.div_const ((ef s - 1) / 2)
    simpa using h1
  set q : ℝ → ℝ := fun x => dslope Real.sinh (Hs s) (Hs x) with hq
  have hqt : Filter.Tendsto (fun x => ef x * q x - 1) (nhds s) (nhds (ef s * Real.cosh (Hs s) - 1)) := by
    have hd : ContinuousAt (dslope Real.sinh (Hs s)) (Hs s) :=
      continuousAt_dslope_same.2 Real.differentiable_sinh.differentiableAt
    have hc : ContinuousAt q s := ContinuousAt.comp (g := dslope Real.sinh (Hs s)) hd hcont
    have ht := (hef.continuousAt.tendsto.mul hc.tendsto).sub_const (1 : ℝ)
    have hv : q s = Real.cosh (Hs s) := by simp [hq, dslope_same]
    rw [hv] at ht
    exact ht
  have hne : ef s * Real.cosh (Hs s) - 1 ≠ 0 := by linarith [hypb_den_pos he (Hs s)]
  rw [hasDerivAt_iff_tendsto_slope] at hN hef ⊢
  refine Filter.Tendsto.congr' ?_ ((hN.sub (hef.mul_const (Real.sinh (Hs s)))).div
    (hqt.mono_left nhdsWithin_le_nhds) hne)
  filter_upwards [self_mem_nhdsWithin, h.filter_mono nhdsWithin_le_nhds,
    (hqt.mono_left nhdsWithin_le_nhds).eventually_ne hne] with x hx hx0 hd
  have hxs : x - s ≠ 0 := sub_ne_zero.2 hx
  have hsl : (Hs x - Hs s) * q x = Real.sinh (Hs x) - Real.sinh (Hs s) := by
    simpa using sub_smul_dslope Real.sinh (Hs s) (Hs x)
  simp only [slope_def_field, Pi.div_apply]
  rw [div_eq_iff hd]
  field_simp
  linear_combination -(hx0 - h0) - ef x * hsl

/-- For `e ≥ 2` the iterates and their derivatives with respect to `e` are controlled by the root. -/
theorem hypbIterE_inv (he : 2 ≤ e) {N r : ℝ} (hN : 0 < N) (hr : e * Real.sinh r - r = N) (k : ℕ) :
    Real.sinh (hypbIter e k N) ≤ 2 * Real.sinh r ∧
    |deriv (hypbIterE N k) e| * (e * Real.cosh (hypbIter e k N) - 1) ≤ 2 * (2 * Real.sinh r) := by
  have he1 : 1 < e := by linarith
  have hr0 := hypb_root_nonneg he1 hr hN.le
  have hR : 0 < Real.sinh r := by
    rw [Real.sinh_pos_iff]
    rcases hr0.eq_or_lt with h | h
    · rw [← h] at hr; simp at hr; linarith
    · exact h
  induction k with
  | zero =>
    obtain ⟨i1, -, -, i4⟩ := hypbIter_inv he1 hN.le 0
    obtain ⟨a, -, -⟩ := i4 rfl
    have h1 : Real.sinh (hypbIter e 0 N) ≤ 2 * Real.sinh r := by
      refine le_of_mul_le_mul_left ?_ (by linarith : 0 < e)
      rw [a]; linarith
    refine ⟨h1, ?_⟩
    have h2 := hypbIterE_zero_deriv he1 N
    have hc := Real.one_le_cosh (hypbIter e 0 N)
    have hX := Real.sinh_nonneg_iff.2 i1
    have hpos : 0 < e * Real.cosh (hypbIter e 0 N) := by positivity
    have h3 : |deriv (hypbIterE N 0) e| * (e * Real.cosh (hypbIter e 0 N)) = Real.sinh (hypbIter e 0 N) := by
      rw [← abs_of_pos hpos, ← abs_mul, h2, abs_neg, abs_of_nonneg hX]
    have := abs_nonneg (deriv (hypbIterE N 0) e)
    linarith
  | succ k ih =>
    have i1 := (hypbIter_inv he1 hN.le k).1
    have i2 := (hypbIter_inv_two he hN.le k).1
    have hs := hypbStep_nonneg (N := N) he1 i2
    have hle : hypbIter e (k + 1) N ≤ hypbIter e k N := by rw [hypbIter_succ]; linarith
    have j1 := (hypbIter_inv he1 hN.le (k + 1)).1
    have j2 := (hypbIter_inv_two he hN.le (k + 1)).1
    have h1 : Real.sinh (hypbIter e (k + 1) N) ≤ 2 * Real.sinh r := (Real.sinh_le_sinh.2 hle).trans ih.1
    refine ⟨h1, ?_⟩
    rw [hypbIterE_succ_deriv he1]
    have := hypb_tangent_keep' (m := 2 * Real.sinh r) (g := -((hypbIter e (k + 1) N + N) / e)) he1 hN.le i1 i2 (by linarith)
      (by
        rw [abs_neg, abs_of_nonneg (div_nonneg (by linarith) (by linarith)), div_le_iff₀ (by linarith)]
        nlinarith) ih.2
    rw [← hypbIter_succ] at this
    exact this

theorem hypbIterE_error (he : 2 ≤ e) {N : ℝ} (k : ℕ) {r tol : ℝ} (hN0 : N ≠ 0) (hr : kepler_equ_hypb r e N = 0)
    (hres : |kepler_equ_hypb (hypbIter e (k + 1) N) e N| ≤ tol) :
    |deriv (hypbIterE N (k + 1)) e * (e * Real.cosh r - 1) + Real.sinh r|
      ≤ (5 * hypbKappa e tol + hypbKappa e tol ^ 2 / 4) * |Real.sinh r| + tol / (e * (e - 1)) := by
  have he1 : 1 < e := by linarith
  wlog hN : 0 < N generalizing N r
  · have := this (N := -N) (r := -r) (neg_ne_zero.2 hN0) (by rw [kep_hypb_eq] at hr ⊢; rw [Real.sinh_neg]; linarith)
      (by
        rw [hypbIter_neg, kep_hypb_eq, Real.sinh_neg]
        rw [kep_hypb_eq, ← abs_neg] at hres
        convert hres using 2
        ring) (by rcases lt_or_gt_of_ne hN0 with h | h <;> linarith)
    rw [Real.cosh_neg, Real.sinh_neg, hypbIterE_deriv_neg, abs_neg, ← abs_neg] at this
    convert this using 2
    ring
  rw [kep_hypb_eq] at hr
  have hr' : e * Real.sinh r - r = N := by linarith
  have i1 := (hypbIter_inv he1 hN.le k).1
  have i2 := (hypbIter_inv_two he hN.le k).1
  have j2 := (hypbIter_inv_two he hN.le (k + 1)).1
  obtain ⟨-, i3⟩ := hypbIterE_inv he hN hr' k
  have hr0 := hypb_root_nonneg he1 hr' hN.le
  have hR := Real.sinh_nonneg_iff.2 hr0
  rw [kep_hypb_eq] at hres
  have hy := (le_abs_self _).trans hres
  have hry := hypb_root_le he1 hr' j2
  have hsl := hypb_slope he1 hry
  rw [hypbIterE_succ_deriv he1]
  have := hypb_tangent_last' (tol := tol) (g := -((hypbIter e (k + 1) N + N) / e)) (g₀ := -Real.sinh r) (ε := tol / (e * (e - 1)))
    he1 hN.le i1 i2 i3 (by
      have e1 : -((hypbIter e (k + 1) N + N) / e) - -Real.sinh r = -((hypbIter e (k + 1) N - r) / e) := by
        have : Real.sinh r = (r + N) / e := by field_simp; linarith
        rw [this]; ring
      rw [e1, abs_neg, abs_of_nonneg (div_nonneg (by linarith) (by linarith)), ← div_div, div_right_comm]
      refine div_le_div_of_nonneg_right ?_ (by linarith)
      rw [le_div_iff₀ (by linarith)]
      linarith) hr' (by rw [← hypbIter_succ]; exact hy)
  rw [abs_neg, sub_neg_eq_add] at this
  refine this.trans (le_of_eq ?_)
  rw [abs_of_nonneg hR]
  ring

/-- C63 for the hyperbolic solver, `e ≥ 2`, along every differentiable curve of mean anomalies and eccentricities: whenever
a step is made and the result meets the tolerance, the tangent that comes out is the derivative of the hyperbolic anomaly
`H` up to the stated error, which is relative to `(|N'| + |e'| |sinh H|)/(e cosh H - 1)`. -/
theorem C63_hypb_curve {Nf ef Hs : ℝ → ℝ} {s tol : ℝ} {N' e' d : Dual ℝ} {n : ℕ} (hN : Tracks Nf s N') (hef : Tracks ef s e')
    (he : 2 ≤ ef s) (hd : solve_kepler_hypb N' e' (cst tol) n = some d)
    (hstart : tol < |kepler_equ_hypb (hypbStart (Nf s) (ef s)) (ef s) (Nf s)|)
    (hres : |kepler_equ_hypb d.val (ef s) (Nf s)| ≤ tol)
    (hroot : ∀ᶠ x in nhds s, kepler_equ_hypb (Hs x) (ef x) (Nf x) = 0) :
    ∃ D, HasDerivAt Hs D s ∧ |Dual.dot d - D|
      ≤ ((5 * hypbKappa (ef s) tol + hypbKappa (ef s) tol ^ 2 / 4) * (|Dual.dot N'| + |Dual.dot e'| * |Real.sinh (Hs s)|)
          + |Dual.dot e'| * (tol / (ef s * (ef s - 1)))) * (1 / (ef s * Real.cosh (Hs s) - 1)) := by
  have he1 : 1 < ef s := by linarith
  have htol : 0 ≤ tol := (abs_nonneg _).trans hres
  refine ⟨_, hypb_root_curve hN.deriv hef.deriv he1 hroot, ?_⟩
  obtain ⟨k, hk, hr, -, -⟩ := hypb_dual hN.val hef.val tol n
  have ht := C63_hypb_iterate hN hef he1 k
  have h1 := Option.some.inj (hd.symm.trans hr)
  have hv : d.val = hypbIter (ef s) k (Nf s) := by rw [h1]; exact ht.val
  rcases k with _ | k
  · rw [hv] at hres
    exact absurd hres (not_le.2 hstart)
  have hdot : Dual.dot d = Dual.dot N' * deriv (hypbIter (ef s) (k + 1)) (Nf s)
      + Dual.dot e' * deriv (hypbIterE (Nf s) (k + 1)) (ef s) := by
    rw [h1]
    exact ht.deriv.unique (hypbIter_curve hN.deriv hef.deriv he1 (k + 1))
  have hN0 : Nf s ≠ 0 := by
    intro h
    rw [h, kep_hypb_eq, C52_hypb (by linarith), hypbStart_eq] at hstart
    simp at hstart
    linarith
  rw [hv] at hres
  have h2 := hypbIter_error_two he k hroot.self_of_nhds hres
  have h3 := hypbIterE_error he k hN0 hroot.self_of_nhds hres
  have hq : 0 < ef s * Real.cosh (Hs s) - 1 := by linarith [hypb_den_pos he1 (Hs s)]
  have hκ := hypbKappa_nonneg (ef s) tol
  rw [hdot]
  set a := Dual.dot N'
  set b := Dual.dot e'
  set A := deriv (hypbIter (ef s) (k + 1)) (Nf s)
  set B := deriv (hypbIterE (Nf s) (k + 1)) (ef s)
  set q := ef s * Real.cosh (Hs s) - 1
  set κ := hypbKappa (ef s) tol
  set R := Real.sinh (Hs s)
  have e1 : a * A + b * B - (a - b * R) / q = (a * (A * q - 1) + b * (B * q + R)) * (1 / q) := by field_simp; ring
  rw [e1, abs_mul, abs_of_pos (by positivity : 0 < 1 / q)]
  refine mul_le_mul_of_nonneg_right ?_ (by positivity)
  refine (abs_add_le _ _).trans ?_
  rw [abs_mul, abs_mul]
  have h4 := mul_le_mul_of_nonneg_left h2 (abs_nonneg a)
  have h5 := mul_le_mul_of_nonneg_left h3 (abs_nonneg b)
  have h6 : 0 ≤ κ * |a| := by positivity
  linear_combination h4 + h5 + 2 * h6

/-- With the default settings: the error is at most `1/80` of `(|N'| + |e'| |sinh H|)/(e cosh H - 1)`, and `1e-6 |e'|`. -/
theorem C63_hypb_curve_default_partial {Nf ef Hs : ℝ → ℝ} {s : ℝ} {N' e' : Dual ℝ} (hN : Tracks Nf s N')
    (hef : Tracks ef s e') (he : 2 ≤ ef s) (hN300 : |Nf s| ≤ 10 ^ 300)
    (hroot : ∀ᶠ x in nhds s, kepler_equ_hypb (Hs x) (ef x) (Nf x) = 0) :
    ∃ d D, solve_kepler_hypb N' e' = some d ∧ HasDerivAt Hs D s ∧
      (1 / 10 ^ 6 < |kepler_equ_hypb (hypbStart (Nf s) (ef s)) (ef s) (Nf s)| →
        |Dual.dot d - D| ≤ 1 / 80 * ((|Dual.dot N'| + |Dual.dot e'| * |Real.sinh (Hs s)|) / (ef s * Real.cosh (Hs s) - 1))
          + 1 / 10 ^ 6 * |Dual.dot e'|) := by
  have he1 : 1 < ef s := by linarith
  have htol : (defaultTol : ℝ) = 1 / 10 ^ 6 := by norm_num [defaultTol]
  obtain ⟨H, g1, g2⟩ := C18_hypb_default_low_partial (by linarith : 2001 / 2000 ≤ ef s) (Nf s) hN300 50 (by norm_num)
  obtain ⟨k, hk, hd, h3, h4⟩ := hypb_dual hN.val hef.val defaultTol 50
  have ht := C63_hypb_iterate hN hef he1 k
  have h5 : solve_kepler_hypb (Nf s) (ef s) defaultTol 50 = some ((newtonHypb (Nf s) (ef s))^[k] (hypbStart (Nf s) (ef s))) :=
    hypb_of_tests hk (fun j hj => by simpa using h3 j hj) (fun h => by simpa using h4 h)
  rw [h5] at g1
  have hv : (((newtonHypb N' e')^[k] (hypbStart N' e')).val : ℝ) = H := by rw [ht.val]; exact Option.some.inj g1
  refine ⟨_, _, hd, hypb_root_curve hN.deriv hef.deriv he1 hroot, fun hs => ?_⟩
  obtain ⟨D, c1, c2⟩ := C63_hypb_curve hN hef he hd (by rw [htol]; exact hs) (by rw [hv, htol]; norm_num; linarith) hroot
  rw [(hypb_root_curve hN.deriv hef.deriv he1 hroot).unique c1]
  refine c2.trans ?_
  have hκ : hypbKappa (ef s) defaultTol ≤ 22 / 10 ^ 4 := by
    refine hypbKappa_le (a := 2) (b := 17 / 10) he1 (by rw [htol]; norm_num) ?_ (by norm_num) (by nlinarith)
      (by norm_num) (by rw [htol]; norm_num)
    rw [div_le_iff₀ (by linarith)]; linarith
  have h0 := hypbKappa_nonneg (ef s) defaultTol
  have hq1 := hypb_den_pos he1 (Hs s)
  set κ := hypbKappa (ef s) defaultTol
  set q := ef s * Real.cosh (Hs s) - 1
  have hB : 5 * κ + κ ^ 2 / 4 ≤ 1 / 80 := by nlinarith
  set S := |Dual.dot N'| + |Dual.dot e'| * |Real.sinh (Hs s)|
  have hS : 0 ≤ S := by positivity
  have hq : 1 ≤ q := by linarith
  have hε : defaultTol / (ef s * (ef s - 1)) ≤ (1 : ℝ) / 10 ^ 6 := by
    rw [htol]
    exact div_le_self (by norm_num) (by nlinarith)
  have hq' : 1 / q ≤ 1 := by rw [div_le_one (by linarith)]; exact hq
  have hqn : 0 ≤ 1 / q := by positivity
  calc ((5 * κ + κ ^ 2 / 4) * S + |Dual.dot e'| * (defaultTol / (ef s * (ef s - 1)))) * (1 / q)
      ≤ (1 / 80 * S + |Dual.dot e'| * (1 / 10 ^ 6)) * (1 / q) := by gcongr
    _ = 1 / 80 * (S / q) + |Dual.dot e'| * (1 / 10 ^ 6) * (1 / q) := by ring
    _ ≤ 1 / 80 * (S / q) + |Dual.dot e'| * (1 / 10 ^ 6) * 1 := by gcongr
    _ = _ := by ring

/-- A case meeting the hypotheses: `N = 4`, differentiated with respect to `e` at `2`. -/
example : ∃ Hs : ℝ → ℝ, (∀ᶠ x in nhds (2 : ℝ), kepler_equ_hypb (Hs x) x 4 = 0) ∧
    ∃ d D, solve_kepler_hypb (cst 4) (⟨2, some 1⟩ : Dual ℝ) = some d ∧ HasDerivAt Hs D 2 ∧
      |Dual.dot d - D| ≤ 1 / 80 * (|Real.sinh (Hs 2)| / (2 * Real.cosh (Hs 2) - 1)) + 1 / 10 ^ 6 := by
  have h : ∀ x : ℝ, ∃ H : ℝ, 1 < x → kepler_equ_hypb H x 4 = 0 := fun x => by
    by_cases hx : 1 < x
    · obtain ⟨H, hH⟩ := (existsUnique_root (show (0 : ℝ) < x - 1 by linarith) (fun H => hasDerivAt_hypb H x 4)
        (fun H => dH_ge (by linarith : (0 : ℝ) ≤ x) H) 0).exists
      exact ⟨H, fun _ => hH⟩
    · exact ⟨0, fun h => absurd h hx⟩
  choose Hs hHs using h
  have hev : ∀ᶠ x in nhds (2 : ℝ), kepler_equ_hypb (Hs x) x 4 = 0 := by
    filter_upwards [lt_mem_nhds (one_lt_two : (1 : ℝ) < 2)] with x hx using hHs x hx
  obtain ⟨d, D, h1, h2, h3⟩ := C63_hypb_curve_default_partial (Hs := Hs) (Tracks.const (s := 2) 4) (Tracks.var 2) le_rfl
    (by
      rw [abs_of_pos (by norm_num)]
      exact le_trans (by norm_num : (4 : ℝ) ≤ 10 ^ 1) (pow_le_pow_right₀ (by norm_num) (by norm_num))) hev
  refine ⟨Hs, hev, d, D, h1, h2, ?_⟩
  have := h3 hypb_step_made
  simpa [Dual.dot] using this

end iter
end Adx
