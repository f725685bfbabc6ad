import Verif.Props.C14
import Mathlib.Analysis.SpecialFunctions.Arsinh
import Mathlib.Analysis.Real.Pi.Bounds
import Mathlib.Analysis.Complex.ExponentialBounds

/-! # C18: the solvers do not always return a solution with their default settings

The claim "for every mean anomaly and every eccentricity in the documented range the default call returns a
solution to tolerance" is false for both conic types; exact counterexamples in real arithmetic (so not an
effect of rounding), and the range in which the claim does hold. -/

namespace Adx
open V3

/-- Residual after one Newton step on the elliptic equation. -/
theorem elps_newton_residual {e : ℝ} (h0 : 0 ≤ e) (h1 : e < 1) (M x : ℝ) :
    |kepler_equ_elps (newtonElps M e x) e M| ≤ e * (newtonElps M e x - x) ^ 2 / 2 := by
  have hd : 0 < dE x e := by linarith [dE_ge h0 x]
  set s := newtonElps M e x - x with hsdef
  have hs' : s * dE x e = -kepler_equ_elps x e M := by
    rw [hsdef, newtonElps]; field_simp; ring
  have hT := sin_taylor x s
  have hxs : x + s = newtonElps M e x := by rw [hsdef]; ring
  rw [hxs] at hT
  have heq : kepler_equ_elps (newtonElps M e x) e M
      = -e * (Real.sin (newtonElps M e x) - Real.sin x - s * Real.cos x) := by
    rw [dE_eq, kep_elps_eq] at hs'
    rw [kep_elps_eq]
    linear_combination hs' - hxs
  rw [heq, abs_mul, abs_neg, abs_of_nonneg h0]
  have := mul_le_mul_of_nonneg_left hT h0
  linarith

/-- Size of a Newton step on the elliptic equation. -/
theorem elps_newton_step {e : ℝ} (h0 : 0 ≤ e) (h1 : e < 1) (M x : ℝ) :
    |newtonElps M e x - x| ≤ |kepler_equ_elps x e M| / (1 - e) := by
  have hd : 1 - e ≤ dE x e := dE_ge h0 x
  have h : newtonElps M e x - x = -(kepler_equ_elps x e M / dE x e) := by rw [newtonElps]; ring
  rw [h, abs_neg, abs_div, abs_of_pos (by linarith : 0 < dE x e)]
  exact div_le_div_of_nonneg_left (abs_nonneg _) (by linarith) hd

/-- Once a step is at most `tol ≤ 2(1-e)` all later ones are. -/
theorem elps_steps_stay {e : ℝ} (h0 : 0 ≤ e) (h1 : e < 1) {tol : ℝ} (htol : 0 < tol) (ht : tol ≤ 2 * (1 - e))
    (M x : ℝ) {k : ℕ} (hk : |(newtonElps M e)^[k + 1] x - (newtonElps M e)^[k] x| ≤ tol) :
    ∀ j, |(newtonElps M e)^[k + j + 1] x - (newtonElps M e)^[k + j] x| ≤ tol := by
  intro j
  induction j with
  | zero => exact hk
  | succ j ih =>
    rw [show k + (j + 1) = k + j + 1 by ring, Function.iterate_succ_apply' _ (k + j + 1)]
    refine (elps_newton_step h0 h1 M _).trans ?_
    rw [div_le_iff₀ (by linarith)]
    rw [Function.iterate_succ_apply'] at ih ⊢
    refine (elps_newton_residual h0 h1 M _).trans ?_
    have hsq : (newtonElps M e ((newtonElps M e)^[k + j] x) - (newtonElps M e)^[k + j] x) ^ 2 ≤ tol ^ 2 := by
      rw [← sq_abs]; exact pow_le_pow_left₀ (abs_nonneg _) ih 2
    nlinarith

/-- If the `n`-th Newton iterate has a residual above `e tol²/2`, `n ≥ 1`, the loop with limit `n` runs to its
limit and returns that iterate. -/
theorem elps_runs_to_limit {e : ℝ} (h0 : 0 ≤ e) (h1 : e < 1) {tol : ℝ} (htol : 0 < tol) (ht : tol ≤ 2 * (1 - e))
    (M : ℝ) (n : ℕ)
    (hres : e * tol ^ 2 / 2 < |kepler_equ_elps ((newtonElps M e)^[n + 1] (elpsStart M e)) e M|) :
    solve_kepler_elps M e tol (n + 1) = some ((newtonElps M e)^[n + 1] (elpsStart M e)) := by
  obtain ⟨k, hk, hr, hs, -, hstop⟩ := C13_elps M e tol (n + 1)
  rcases hk.lt_or_eq with h | h
  · exfalso
    have hst := hstop h
    simp only [lt_real, abs_real, decide_eq_false_iff_not, not_lt] at hst
    rcases k with _ | k
    · simp only [prevOf, Function.iterate_zero, id_eq, Nat.cast_ofNat] at hst
      rw [show elpsStart M e - (elpsStart M e + 2 * tol) = -(2 * tol) by ring, abs_neg,
        abs_of_pos (by linarith)] at hst
      linarith
    · simp only [prevOf] at hst
      have := elps_steps_stay h0 h1 htol ht M (elpsStart M e) hst (n - k)
      rw [show k + (n - k) = n by omega, Function.iterate_succ_apply'] at this
      rw [Function.iterate_succ_apply'] at hres
      have h2 := elps_newton_residual h0 h1 M ((newtonElps M e)^[n] (elpsStart M e))
      have hsq : (newtonElps M e ((newtonElps M e)^[n] (elpsStart M e))
          - (newtonElps M e)^[n] (elpsStart M e)) ^ 2 ≤ tol ^ 2 := by
        rw [← sq_abs]; exact pow_le_pow_left₀ (abs_nonneg _) this 2
      nlinarith
  · rw [hs, h]

/-- The eccentricity of the elliptic counterexample. -/
noncomputable def badE : ℝ := 999999 / 1000000

/-- Newton's iterates for eccentricity `badE` depend continuously on `M` if the starting value does. -/
theorem continuous_badIter {S : ℝ → ℝ} (hS : Continuous S) (n : ℕ) :
    Continuous fun M => (newtonElps M badE)^[n] (S M) := by
  have h0 : (0 : ℝ) ≤ badE := by norm_num [badE]
  have h1 : badE < 1 := by norm_num [badE]
  induction n with
  | zero =>
    simpa only [Function.iterate_zero, id_eq] using hS
  | succ n ih =>
    simp only [Function.iterate_succ_apply']
    simp only [newtonElps, kep_elps_eq, dE_eq]
    refine ih.sub (Continuous.div ?_ ?_ ?_)
    · exact (ih.sub (continuous_const.mul (Real.continuous_sin.comp ih))).sub continuous_id
    · exact continuous_const.sub (continuous_const.mul (Real.continuous_cos.comp ih))
    · intro M
      have := dE_ge h0 ((newtonElps M badE)^[n] (S M))
      rw [dE_eq] at this
      refine (lt_of_lt_of_le (by linarith : 0 < 1 - badE) ?_).ne'
      simpa only [newtonElps, kep_elps_eq, dE_eq] using this

theorem badIter_pi {S : ℝ → ℝ} (hS : S Real.pi = Real.pi) (n : ℕ) :
    (newtonElps Real.pi badE)^[n] (S Real.pi) = Real.pi := by
  induction n with
  | zero => simpa using hS
  | succ n ih => rw [Function.iterate_succ_apply', ih]; simp [newtonElps, kep_elps_eq]

/-- The first Newton step from `M = 1/100` overshoots past `2π`. -/
theorem elpsIter_one_large : 2 * Real.pi ≤ newtonElps (1 / 100) badE (elpsStart (1 / 100) badE) := by
  have hp := Real.pi_lt_d2
  set E0 := elpsStart (1 / 100 : ℝ) badE with hE0
  have he0 : (0 : ℝ) ≤ badE := by norm_num [badE]
  have he1 : badE ≤ 1 := by norm_num [badE]
  have s1 : Real.sin (1 / 100) ≤ 1 / 100 := Real.sin_le (by norm_num)
  have s1' : 0 ≤ Real.sin (1 / 100) := Real.sin_nonneg_of_nonneg_of_le_pi (by norm_num) (by linarith [Real.two_le_pi])
  have s2 : Real.sin (2 * (1 / 100)) ≤ 2 * (1 / 100) := Real.sin_le (by norm_num)
  have s2' : 0 ≤ Real.sin (2 * (1 / 100)) :=
    Real.sin_nonneg_of_nonneg_of_le_pi (by norm_num) (by linarith [Real.two_le_pi])
  have hlo : 1 / 100 ≤ E0 := by
    simp only [hE0, elpsStart, sin_real, Nat.cast_ofNat]
    have : 0 ≤ badE * Real.sin (1 / 100) := mul_nonneg he0 s1'
    have : 0 ≤ badE ^ 2 * Real.sin (2 * (1 / 100)) := mul_nonneg (sq_nonneg _) s2'
    linarith
  have hhi : E0 ≤ 3 / 100 := by
    simp only [hE0, elpsStart, sin_real, Nat.cast_ofNat]
    have : badE * Real.sin (1 / 100) ≤ 1 * (1 / 100) := mul_le_mul he1 s1 s1' (by norm_num)
    have : badE ^ 2 * Real.sin (2 * (1 / 100)) ≤ 1 * (2 * (1 / 100)) :=
      mul_le_mul (by nlinarith) s2 s2' (by norm_num)
    linarith
  have hsin := Real.sin_gt_sub_cube (by linarith : 0 < E0)
  have hcos := Real.one_sub_sq_div_two_le_cos (x := E0)
  have hsq : E0 ^ 2 ≤ 9 / 10000 := by nlinarith
  have hcube : E0 ^ 3 ≤ 27 / 1000000 := by nlinarith [sq_nonneg E0]
  have hd : dE E0 badE ≤ 452 / 1000000 := by
    rw [dE_eq, badE]; nlinarith
  have hdpos : 0 < dE E0 badE := by
    have := dE_ge he0 E0; have : badE < 1 := by norm_num [badE]
    linarith
  have hf : kepler_equ_elps E0 badE (1 / 100) ≤ -(99 / 10000) := by
    rw [kep_elps_eq, badE]; nlinarith
  rw [newtonElps]
  have : 20 ≤ -kepler_equ_elps E0 badE (1 / 100) / dE E0 badE := by
    rw [le_div_iff₀ hdpos]; nlinarith
  rw [neg_div] at this
  linarith

/-- For every `n ≥ 1` some mean anomaly in `[1/100, π]` has its `n`-th iterate at a multiple of `2π`. -/
theorem badIter_hits {S : ℝ → ℝ} (hc0 : Continuous S) (hpi0 : S Real.pi = Real.pi)
    (hbig0 : 2 * Real.pi ≤ newtonElps (1 / 100) badE (S (1 / 100))) (n : ℕ) : ∃ M ∈ Set.Icc (1 / 100 : ℝ) Real.pi, ∃ k : ℤ,
    (newtonElps M badE)^[n + 1] (S M) = 2 * Real.pi * k := by
  have hp := Real.two_le_pi
  have hp2 := Real.pi_lt_d2
  induction n with
  | zero =>
    have hc := (continuous_badIter hc0 1).continuousOn (s := Set.Icc (1 / 100 : ℝ) Real.pi)
    have := intermediate_value_Icc' (by linarith : (1 / 100 : ℝ) ≤ Real.pi) hc
    simp only [badIter_pi hpi0, Function.iterate_one] at this
    obtain ⟨M, hM, h⟩ := this (Set.mem_Icc.2 ⟨by linarith, hbig0⟩)
    exact ⟨M, hM, 1, by simpa using h⟩
  | succ n ih =>
    obtain ⟨M, ⟨hM1, hM2⟩, k, hk⟩ := ih
    set g := fun M => (newtonElps M badE)^[n + 1 + 1] (S M) with hg
    have hgM : g M = 2 * Real.pi * k + 1000000 * (M - 2 * Real.pi * k) := by
      have hs : Real.sin (2 * Real.pi * k) = 0 := by
        rw [show 2 * Real.pi * (k : ℝ) = ((2 * k : ℤ) : ℝ) * Real.pi by push_cast; ring]
        exact Real.sin_int_mul_pi _
      have hcs : Real.cos (2 * Real.pi * k) = 1 := by
        rw [mul_comm]; exact Real.cos_int_mul_two_pi k
      simp only [hg]
      rw [Function.iterate_succ_apply', hk]
      simp only [newtonElps, kep_elps_eq, dE_eq, hs, hcs, badE]
      ring
    have hc := (continuous_badIter hc0 (n + 1 + 1)).continuousOn (s := Set.Icc M Real.pi)
    have hpi : g Real.pi = Real.pi := badIter_pi hpi0 _
    rcases le_or_gt k 0 with hk0 | hk0
    · -- the iterate is far to the right: crosses `2π`
      have hkr : (k : ℝ) ≤ 0 := by exact_mod_cast hk0
      have hbig : 2 * Real.pi ≤ g M := by
        rw [hgM]
        have : 0 ≤ Real.pi * -(k : ℝ) := mul_nonneg (by linarith) (by linarith)
        linarith
      have h2 := intermediate_value_Icc' hM2 hc
      have hmem : 2 * Real.pi ∈ Set.Icc (g Real.pi) (g M) := by
        rw [hpi]; exact ⟨by linarith, hbig⟩
      obtain ⟨M', hM', h⟩ := h2 hmem
      exact ⟨M', ⟨hM1.trans hM'.1, hM'.2⟩, 1, by simpa using h⟩
    · -- far to the left: crosses `0`
      have hkr : (1 : ℝ) ≤ k := by exact_mod_cast hk0
      have hsmall : g M ≤ 0 := by
        rw [hgM]
        have : Real.pi * 1 ≤ Real.pi * k := mul_le_mul_of_nonneg_left hkr (by linarith)
        linarith
      have h2 := intermediate_value_Icc hM2 hc
      have hmem : (0 : ℝ) ∈ Set.Icc (g M) (g Real.pi) := by
        rw [hpi]; exact ⟨hsmall, by linarith⟩
      obtain ⟨M', hM', h⟩ := h2 hmem
      exact ⟨M', ⟨hM1.trans hM'.1, hM'.2⟩, 0, by simpa using h⟩

theorem elpsIter_hits (n : ℕ) : ∃ M ∈ Set.Icc (1 / 100 : ℝ) Real.pi, ∃ k : ℤ,
    (newtonElps M badE)^[n + 1] (elpsStart M badE) = 2 * Real.pi * k := by
  refine badIter_hits (S := fun M => elpsStart M badE) ?_ (by simp [elpsStart]) elpsIter_one_large n
  simp only [elpsStart, sin_real, Nat.cast_ofNat]
  fun_prop

/-- C18 is false for ellipses: with eccentricity `0.999999` and the default tolerance, *whatever* iteration
limit (in particular the default 20) there is a mean anomaly in `[0.01, π]` for which `solve_kepler_elps` runs
to its limit and returns a value whose residual is at least `0.01`, ten thousand times the tolerance. -/
theorem C18_elps_refuted (max_iter : ℕ) (hn : 1 ≤ max_iter) :
    ∃ M ∈ Set.Icc (1 / 100 : ℝ) Real.pi, ∃ E, solve_kepler_elps M badE defaultTol max_iter = some E ∧
      1 / 100 ≤ |kepler_equ_elps E badE M| := by
  obtain ⟨n, rfl⟩ : ∃ n, max_iter = n + 1 := ⟨max_iter - 1, by omega⟩
  obtain ⟨M, hM, k, hk⟩ := elpsIter_hits n
  have hp2 := Real.pi_lt_d2
  have hp := Real.pi_gt_d2
  have hres : 1 / 100 ≤ |kepler_equ_elps ((newtonElps M badE)^[n + 1] (elpsStart M badE)) badE M| := by
    rw [hk, kep_elps_eq]
    have hs : Real.sin (2 * Real.pi * k) = 0 := by
      rw [show 2 * Real.pi * (k : ℝ) = ((2 * k : ℤ) : ℝ) * Real.pi by push_cast; ring]
      exact Real.sin_int_mul_pi _
    rw [hs]
    rcases le_or_gt k 0 with hk0 | hk0
    · have hkr : (k : ℝ) ≤ 0 := by exact_mod_cast hk0
      rw [abs_of_nonpos (by nlinarith [hM.1])]
      nlinarith [hM.1]
    · have hkr : (1 : ℝ) ≤ k := by exact_mod_cast hk0
      rw [abs_of_nonneg (by nlinarith [hM.2])]
      nlinarith [hM.2]
  refine ⟨M, hM, _, elps_runs_to_limit (by norm_num [badE]) (by norm_num [badE]) (by norm_num [defaultTol])
    (by norm_num [defaultTol, badE]) M n (lt_of_lt_of_le ?_ hres), hres⟩
  norm_num [defaultTol, badE]

/-- C18, the default call: the full claim fails. -/
theorem C18_elps_default_refuted : ¬ ∀ M e : ℝ, 0 ≤ e → e < 1 →
    ∃ E, solve_kepler_elps M e = some E ∧ |kepler_equ_elps E e M| ≤ 1 / 1000 := by
  intro h
  obtain ⟨M, -, E, hE, hres⟩ := C18_elps_refuted 20 (by norm_num)
  obtain ⟨E', hE', hres'⟩ := h M badE (by norm_num [badE]) (by norm_num [badE])
  rw [hE] at hE'
  obtain rfl : E = E' := by simpa using hE'
  linarith

/-! ### Hyperbolas -/

/-- A Newton step on the hyperbolic equation moves left by at most 2 once `H ≥ 2`. -/
theorem hypb_newton_slow {N e H : ℝ} (hN : 0 ≤ N) (he : 1 ≤ e) (hH : 2 ≤ H) : H - 2 ≤ newtonHypb N e H := by
  have hcs : Real.sinh H ≤ Real.cosh H := (Real.sinh_lt_cosh H).le
  have hc2 : 2 ≤ Real.cosh H := by
    rw [Real.cosh_eq]
    have := Real.quadratic_le_exp_of_nonneg (by linarith : 0 ≤ H)
    have := Real.exp_pos (-H)
    nlinarith
  have hd : 0 < dH H e := by rw [dH_eq]; nlinarith
  rw [newtonHypb]
  have : kepler_equ_hypb H e N / dH H e ≤ 2 := by
    rw [div_le_iff₀ hd, kep_hypb_eq, dH_eq]; nlinarith
  linarith

/-- Residual at large `H`. -/
theorem hypb_residual_large {N e H : ℝ} (hN : N ≤ 1) (he : 1 ≤ e) (hH : 200 ≤ H) :
    9000 ≤ kepler_equ_hypb H e N := by
  have hs : H ^ 2 / 4 ≤ Real.sinh H := by
    rw [Real.sinh_eq]
    have := Real.quadratic_le_exp_of_nonneg (by linarith : 0 ≤ H)
    have : Real.exp (-H) ≤ 1 := Real.exp_le_one_iff.2 (by linarith)
    nlinarith
  rw [kep_hypb_eq]
  nlinarith

/-- The hyperbolic counterexample: `N = 1/1000`, `e = 1.000001`. -/
noncomputable def badH : ℝ := 1000001 / 1000000

theorem hypbStart_facts : let H0 := hypbStart (1 / 1000) badH
    199 / 100000 ≤ H0 ∧ kepler_equ_hypb H0 badH (1 / 1000) = 1 / 1000 - H0 ∧ dH H0 badH ≤ 31 / 10000000 := by
  intro H0
  set u : ℝ := 2 * (1 / 1000) / badH with hu
  have hu1 : 1999 / 1000000 ≤ u := by norm_num [hu, badH]
  have hu2 : u ≤ 2 / 1000 := by norm_num [hu, badH]
  have hH : H0 = Real.arsinh u := by
    simp only [H0, hypbStart, Real.arsinh, log_real, sqrt_real, Nat.cast_ofNat, Nat.cast_one]
    rw [← hu, add_comm (u ^ 2)]
  have hsinh : Real.sinh H0 = u := by rw [hH, Real.sinh_arsinh]
  have hcosh : Real.cosh H0 = Real.sqrt (1 + u ^ 2) := by rw [hH, Real.cosh_arsinh]
  have hc : Real.cosh H0 ≤ 1 + 2 / 1000000 := by
    rw [hcosh]
    refine Real.sqrt_le_iff.2 ⟨by norm_num, ?_⟩
    nlinarith
  refine ⟨?_, ?_, ?_⟩
  · rw [hH, Real.arsinh]
    have h1 : 1 + u ≤ u + Real.sqrt (1 + u ^ 2) := by
      have : 1 ≤ Real.sqrt (1 + u ^ 2) := Real.one_le_sqrt.2 (by nlinarith)
      linarith
    have h2 := Real.one_sub_inv_le_log_of_pos (by linarith : 0 < 1 + u)
    have h3 := Real.log_le_log (by linarith : 0 < 1 + u) h1
    have h4 : 199 / 100000 ≤ 1 - (1 + u)⁻¹ := by
      have : (1 + u)⁻¹ ≤ (1 + 1999 / 1000000 : ℝ)⁻¹ := inv_anti₀ (by norm_num) (by linarith)
      norm_num at this ⊢
      linarith
    linarith
  · rw [kep_hypb_eq, hsinh, hu]
    have : badH ≠ 0 := by norm_num [badH]
    field_simp
    ring
  · rw [dH_eq]
    have : badH * Real.cosh H0 ≤ badH * (1 + 2 / 1000000) :=
      mul_le_mul_of_nonneg_left hc (by norm_num [badH])
    have h2 : badH * (1 + 2 / 1000000) ≤ 1 + 31 / 10000000 := by norm_num [badH]
    linarith

theorem hypbIter_large (n : ℕ) (hn : n ≤ 49) :
    300 - 2 * (n : ℝ) ≤ (newtonHypb (1 / 1000) badH)^[n + 1] (hypbStart (1 / 1000) badH) := by
  induction n with
  | zero =>
    obtain ⟨h1, h2, h3⟩ := hypbStart_facts
    rw [Function.iterate_one, newtonHypb, h2]
    set H0 := hypbStart (1 / 1000) badH
    have hd : 0 < dH H0 badH := by
      have := dH_ge (by norm_num [badH] : (0 : ℝ) ≤ badH) H0
      have : (0 : ℝ) < badH - 1 := by norm_num [badH]
      linarith
    have : 300 ≤ (H0 - 1 / 1000) / dH H0 badH := by
      rw [le_div_iff₀ hd]; nlinarith
    have heq : (1 / 1000 - H0) / dH H0 badH = -((H0 - 1 / 1000) / dH H0 badH) := by ring
    rw [heq]
    push_cast
    linarith
  | succ n ih =>
    have hih := ih (by omega)
    have hn' : (n : ℝ) ≤ 48 := by exact_mod_cast (by omega : n ≤ 48)
    rw [Function.iterate_succ_apply']
    have := hypb_newton_slow (N := 1 / 1000) (e := badH) (by norm_num) (by norm_num [badH])
      (by linarith : 2 ≤ (newtonHypb (1 / 1000) badH)^[n + 1] (hypbStart (1 / 1000) badH))
    push_cast
    linarith

/-- C18 is false for hyperbolas: `N = 0.001`, `e = 1.000001`, default settings. The first Newton step overshoots
to `H > 300`, each later step moves back by at most 2, and after the default 50 steps the residual is still above
9000 (the exact root is below 1). -/
theorem C18_hypb_default_refuted :
    ∃ H, solve_kepler_hypb (1 / 1000) badH = some H ∧ 200 ≤ H ∧ 9000 ≤ kepler_equ_hypb H badH (1 / 1000) ∧
      ∀ Hs, kepler_equ_hypb Hs badH (1 / 1000) = 0 → Hs < 1 := by
  have he : (1 : ℝ) ≤ badH := by norm_num [badH]
  obtain ⟨k, hk, -, hs, -, hstop⟩ := C13_hypb (1 / 1000 : ℝ) badH defaultTol 50
  have hk50 : k = 50 := by
    by_contra h
    have hlt : k < 50 := lt_of_le_of_ne hk h
    have hst := hstop hlt
    simp only [lt_real, abs_real, decide_eq_false_iff_not, not_lt] at hst
    rcases k with _ | n
    · obtain ⟨h1, h2, -⟩ := hypbStart_facts
      simp only [Function.iterate_zero, id_eq] at hst
      rw [h2, abs_of_nonpos (by linarith)] at hst
      norm_num [defaultTol] at hst
      linarith
    · have h1 := hypbIter_large n (by omega)
      have hn : (n : ℝ) ≤ 48 := by exact_mod_cast (by omega : n ≤ 48)
      have h2 := hypb_residual_large (N := 1 / 1000) (by norm_num) he
        (by linarith : 200 ≤ (newtonHypb (1 / 1000) badH)^[n + 1] (hypbStart (1 / 1000) badH))
      have h3 := (le_abs_self _).trans hst
      have h4 : (defaultTol : ℝ) ≤ 1 := by norm_num [defaultTol]
      linarith
  subst hk50
  have h1 := hypbIter_large 49 le_rfl
  push_cast at h1
  have hbig : 200 ≤ (newtonHypb (1 / 1000) badH)^[49 + 1] (hypbStart (1 / 1000) badH) := by linarith
  refine ⟨_, hs, hbig, hypb_residual_large (by norm_num) he hbig, fun Hs hHs => ?_⟩
  by_contra hge
  rw [not_lt] at hge
  have hsl := slope_le (fun H => hasDerivAt_hypb H badH (1 / 1000)) (dH_ge (by linarith : 0 ≤ badH)) hge
  rw [hHs, kep_hypb_eq] at hsl
  have hsinh : 11 / 10 ≤ Real.sinh 1 := by
    rw [Real.sinh_eq]
    have := Real.exp_one_gt_d9
    have h2 : Real.exp (-1) ≤ 1 / 2 := by
      rw [Real.exp_neg, one_div]
      exact inv_anti₀ (by norm_num) (by linarith)
    linarith
  have h5 : 0 ≤ (badH - 1) * (Hs - 1) := mul_nonneg (by linarith) (by linarith)
  nlinarith

/-! ### Where the default settings do work -/

/-- C52 (used here): the residual of the documented starting value is of third order in the eccentricity. -/
theorem elpsStart_residual {e : ℝ} (h0 : 0 ≤ e) (M : ℝ) :
    |kepler_equ_elps (elpsStart M e) e M| ≤ e ^ 3 * (1 + (1 + e / 2) ^ 2 / 2) := by
  set δ := e * Real.sin M + e ^ 2 * Real.sin (2 * M) / 2 with hδ
  have hE : elpsStart M e = M + δ := by
    simp only [elpsStart, sin_real, Nat.cast_ofNat, hδ]; ring
  have hT := sin_taylor M δ
  have hsc : |Real.sin M| ≤ 1 := Real.abs_sin_le_one M
  have hs2 : |Real.sin (2 * M)| ≤ 1 := Real.abs_sin_le_one _
  have hδabs : |δ| ≤ e * (1 + e / 2) := by
    rw [hδ]
    refine (abs_add_le _ _).trans ?_
    rw [abs_mul, abs_of_nonneg h0, abs_div, abs_mul, abs_of_nonneg (sq_nonneg e), abs_two]
    nlinarith [sq_nonneg e]
  have hδsq : δ ^ 2 ≤ (e * (1 + e / 2)) ^ 2 := by
    rw [← sq_abs]; exact pow_le_pow_left₀ (abs_nonneg _) hδabs 2
  have hsplit : kepler_equ_elps (elpsStart M e) e M
      = -e * (Real.sin (M + δ) - Real.sin M - δ * Real.cos M) - e ^ 3 * (Real.sin M * Real.cos M ^ 2) := by
    rw [kep_elps_eq, hE, hδ, Real.sin_two_mul]; ring
  have hcc : |Real.sin M * Real.cos M ^ 2| ≤ 1 := by
    rw [abs_mul, abs_of_nonneg (sq_nonneg (Real.cos M))]
    have : Real.cos M ^ 2 ≤ 1 := Real.cos_sq_le_one M
    nlinarith [abs_nonneg (Real.sin M), sq_nonneg (Real.cos M)]
  rw [hsplit]
  refine (abs_sub _ _).trans ?_
  rw [abs_mul, abs_neg, abs_of_nonneg h0, abs_mul, abs_of_nonneg (pow_nonneg h0 3)]
  have h3 := mul_le_mul_of_nonneg_left hT h0
  have h4 := mul_le_mul_of_nonneg_left hcc (pow_nonneg h0 3)
  have h5 := mul_le_mul_of_nonneg_left hδsq h0
  nlinarith

/-- If some Newton step before the limit is at most `tol`, the returned value has residual at most `e tol²/2`. -/
theorem elps_returns_accurate {e : ℝ} (h0 : 0 ≤ e) (h1 : e < 1) {tol : ℝ} (htol : 0 < tol) (ht : tol ≤ 2 * (1 - e))
    (M : ℝ) {max_iter m : ℕ} (hm : m < max_iter)
    (hstep : |(newtonElps M e)^[m + 1] (elpsStart M e) - (newtonElps M e)^[m] (elpsStart M e)| ≤ tol) :
    ∃ E, solve_kepler_elps M e tol max_iter = some E ∧ |kepler_equ_elps E e M| ≤ e * tol ^ 2 / 2 := by
  obtain ⟨k, hk, hr, hs, -, -⟩ := C13_elps M e tol max_iter
  rcases hk.lt_or_eq with h | rfl
  · exact ⟨_, hs, (C14_elps_accuracy h0 h1 htol hr h).2.1⟩
  · obtain ⟨n, rfl⟩ : ∃ n, k = n + 1 := ⟨k - 1, by omega⟩
    refine ⟨_, hs, ?_⟩
    have h2 := elps_steps_stay h0 h1 htol ht M (elpsStart M e) hstep (n - m)
    rw [show m + (n - m) = n by omega, Function.iterate_succ_apply'] at h2
    rw [Function.iterate_succ_apply']
    refine (elps_newton_residual h0 h1 M _).trans ?_
    have hsq : (newtonElps M e ((newtonElps M e)^[n] (elpsStart M e))
        - (newtonElps M e)^[n] (elpsStart M e)) ^ 2 ≤ tol ^ 2 := by
      rw [← sq_abs]; exact pow_le_pow_left₀ (abs_nonneg _) h2 2
    nlinarith

/-- Newton steps shrink doubly exponentially for `e ≤ 3/5`. -/
theorem elps_steps_shrink {e : ℝ} (h0 : 0 ≤ e) (h1 : e ≤ 3 / 5) (M : ℝ) (k : ℕ) :
    |(newtonElps M e)^[k + 1] (elpsStart M e) - (newtonElps M e)^[k] (elpsStart M e)|
      ≤ (3 / 4 : ℝ) ^ (2 ^ k - 1) := by
  have h1' : e < 1 := by linarith
  induction k with
  | zero =>
    simp only [pow_zero, Nat.sub_self, zero_add, Function.iterate_one, Function.iterate_zero, id_eq]
    refine (elps_newton_step h0 h1' M _).trans ?_
    rw [div_le_one (by linarith)]
    refine (elpsStart_residual h0 M).trans ?_
    have h3 : e ^ 3 ≤ (3 / 5) ^ 3 := pow_le_pow_left₀ h0 h1 3
    have h4 : (1 + (1 + e / 2) ^ 2 / 2) ≤ 1.845 := by nlinarith
    have h5 : 0 ≤ e ^ 3 := pow_nonneg h0 3
    calc e ^ 3 * (1 + (1 + e / 2) ^ 2 / 2) ≤ (3 / 5) ^ 3 * 1.845 := by
            apply mul_le_mul h3 h4 (by positivity) (by positivity)
      _ ≤ 1 - e := by norm_num; linarith
  | succ k ih =>
    rw [Function.iterate_succ_apply' _ (k + 1)]
    refine (elps_newton_step h0 h1' M _).trans ?_
    rw [div_le_iff₀ (by linarith)]
    rw [Function.iterate_succ_apply'] at ih ⊢
    refine (elps_newton_residual h0 h1' M _).trans ?_
    set s := newtonElps M e ((newtonElps M e)^[k] (elpsStart M e)) - (newtonElps M e)^[k] (elpsStart M e)
    have hsq : s ^ 2 ≤ ((3 / 4 : ℝ) ^ (2 ^ k - 1)) ^ 2 := by
      rw [← sq_abs]; exact pow_le_pow_left₀ (abs_nonneg _) ih 2
    have hexp : (3 / 4 : ℝ) ^ (2 ^ (k + 1) - 1) = 3 / 4 * ((3 / 4 : ℝ) ^ (2 ^ k - 1)) ^ 2 := by
      rw [← pow_mul, ← pow_succ']
      congr 1
      have := Nat.one_le_two_pow (n := k)
      rw [pow_succ]; omega
    rw [hexp]
    set T := ((3 / 4 : ℝ) ^ (2 ^ k - 1)) ^ 2
    nlinarith [sq_nonneg s]

/-- C18, the part that holds: for every mean anomaly and every eccentricity up to `3/5` the default call (and
every call with at least 7 iterations) returns a value whose residual is at most `e · 10⁻¹²/2`.
Missing from the full claim: eccentricities above `3/5` (false near 1 by `C18_elps_refuted`). -/
theorem C18_elps_default_partial {e : ℝ} (h0 : 0 ≤ e) (h1 : e ≤ 3 / 5) (M : ℝ) (max_iter : ℕ := 20)
    (hn : 7 ≤ max_iter) :
    ∃ E, solve_kepler_elps M e defaultTol max_iter = some E ∧
      |kepler_equ_elps E e M| ≤ e * (1 / 1000000) ^ 2 / 2 := by
  have hs := elps_steps_shrink h0 h1 M 6
  have htol : (defaultTol : ℝ) = 1 / 1000000 := by norm_num [defaultTol]
  have := elps_returns_accurate h0 (by linarith) (tol := defaultTol) (by rw [htol]; norm_num)
    (by rw [htol]; linarith) M (by omega : 6 < max_iter) (hs.trans (by rw [htol]; norm_num))
  rwa [show e * (1 / 1000000) ^ 2 / 2 = e * (defaultTol : ℝ) ^ 2 / 2 by rw [htol]]

end Adx
