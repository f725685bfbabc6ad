import Verif.Props.C17
import Verif.Props.C18

/-! # C18, continued: hyperbolas for which the default settings suffice -/

namespace Adx

/-- `sinh` below its second-order expansion to the left. -/
theorem sinh_sub_le {H s : ℝ} (hs : 0 ≤ s) (hsH : s ≤ H) :
    Real.sinh (H - s) ≤ Real.sinh H - s * Real.cosh H + s ^ 2 / 2 * Real.sinh H := by
  have dS : ∀ u : ℝ, HasDerivAt (fun u => Real.sinh (H - u)) (-Real.cosh (H - u)) u := fun u => by
    simpa using ((hasDerivAt_id' u).const_sub H).sinh
  have dC : ∀ u : ℝ, HasDerivAt (fun u => Real.cosh (H - u)) (-Real.sinh (H - u)) u := fun u => by
    simpa using ((hasDerivAt_id' u).const_sub H).cosh
  have mono : ∀ (g g' : ℝ → ℝ), (∀ u, HasDerivAt g (g' u) u) → (∀ u ∈ Set.Ioo 0 H, g' u ≤ 0) →
      ∀ u ∈ Set.Icc 0 H, g u ≤ g 0 := by
    intro g g' hg hg' u hu
    refine antitoneOn_of_deriv_nonpos (convex_Icc 0 H)
      (continuous_iff_continuousAt.2 fun u => (hg u).continuousAt).continuousOn
      (fun u _ => (hg u).differentiableAt.differentiableWithinAt) ?_ (Set.left_mem_Icc.2 (hs.trans hsH)) hu hu.1
    intro v hv
    rw [interior_Icc] at hv
    rw [(hg v).deriv]
    exact hg' v hv
  have hq : ∀ u : ℝ, HasDerivAt (fun u : ℝ => u ^ 2 / 2 * Real.sinh H) (u * Real.sinh H) u := fun u => by
    refine (((hasDerivAt_pow 2 u).div_const 2).mul_const _).congr_deriv ?_
    push_cast; ring
  have hl : ∀ c u : ℝ, HasDerivAt (fun u : ℝ => u * c) c u := fun c u => by
    simpa using (hasDerivAt_id' u).mul_const c
  -- first derivative
  have h1 : ∀ u ∈ Set.Icc 0 H, -Real.cosh (H - u) + Real.cosh H - u * Real.sinh H ≤ 0 := by
    intro u hu
    have := mono (fun u => -Real.cosh (H - u) + Real.cosh H - u * Real.sinh H)
      (fun u => Real.sinh (H - u) - Real.sinh H)
      (fun u => by
        refine (((dC u).neg.add_const (Real.cosh H)).fun_sub (hl (Real.sinh H) u)).congr_deriv ?_
        ring)
      (fun v hv => by
        have : Real.sinh (H - v) ≤ Real.sinh H := Real.sinh_le_sinh.2 (by linarith [hv.1])
        linarith) u hu
    simpa using this
  have := mono (fun u => Real.sinh (H - u) + u * Real.cosh H - u ^ 2 / 2 * Real.sinh H)
    (fun u => -Real.cosh (H - u) + Real.cosh H - u * Real.sinh H)
    (fun u => ((dS u).fun_add (hl (Real.cosh H) u)).fun_sub (hq u))
    (fun v hv => h1 v ⟨hv.1.le, hv.2.le⟩) s ⟨hs, hsH⟩
  simp only [sub_zero, zero_mul, add_zero, ne_eq, OfNat.ofNat_ne_zero, not_false_eq_true, zero_pow, zero_div] at this
  linarith

theorem sinh_tangent {x y : ℝ} (hx : 0 ≤ x) (hy : 0 ≤ y) : Real.sinh x + (y - x) * Real.cosh x ≤ Real.sinh y := by
  have hc : ConvexOn ℝ (Set.Ici 0) Real.sinh := by
    refine MonotoneOn.convexOn_of_deriv (convex_Ici 0) Real.continuous_sinh.continuousOn
      Real.differentiable_sinh.differentiableOn ?_
    intro a ha b hb hab
    rw [interior_Ici] at ha hb
    rw [Real.deriv_sinh, Real.cosh_le_cosh, abs_of_pos ha, abs_of_pos hb]
    exact hab
  rcases lt_trichotomy x y with h | h | h
  · have := hc.le_slope_of_hasDerivAt hx hy h (Real.hasDerivAt_sinh x)
    rw [slope_def_field, le_div_iff₀ (by linarith)] at this
    linarith
  · simp [h]
  · have := hc.slope_le_of_hasDerivAt hy hx h (Real.hasDerivAt_sinh x)
    rw [slope_def_field, div_le_iff₀ (by linarith)] at this
    linarith

section
variable {N e : ℝ} (hN : 0 ≤ N) (he : 3 ≤ e)
include hN he

/-- One Newton step from the right of the root: stays to the right, residual and step shrink quadratically. -/
theorem hypb_step {H : ℝ} (hH : 0 ≤ H) (hf : 0 ≤ kepler_equ_hypb H e N) :
    let H' := newtonHypb N e H
    let s := H - H'
    let s' := H' - newtonHypb N e H'
    0 ≤ H' ∧ 0 ≤ s ∧ 0 ≤ kepler_equ_hypb H' e N ∧ kepler_equ_hypb H' e N ≤ e * Real.sinh H * s ^ 2 / 2 ∧
      s' ≤ 3 / 4 * s ^ 2 * Real.exp s := by
  intro H' s s'
  have hc1 := Real.one_le_cosh H
  have hd : 2 / 3 * (e * Real.cosh H) ≤ dH H e := by rw [dH_eq]; nlinarith
  have hdpos : 0 < dH H e := by nlinarith
  have hs : s = kepler_equ_hypb H e N / dH H e := by simp only [s, H', newtonHypb]; ring
  have hs0 : 0 ≤ s := by rw [hs]; positivity
  have hsd : s * dH H e = kepler_equ_hypb H e N := by rw [hs]; field_simp
  have hH' : 0 ≤ H' := by
    by_contra hneg
    rw [not_le] at hneg
    have ht := sinh_tangent hH le_rfl
    rw [Real.sinh_zero] at ht
    have : H < s := by simp only [s]; linarith
    rw [dH_eq, kep_hypb_eq] at hsd
    have h3 : 0 < e * Real.cosh H - 1 := by rw [← dH_eq]; exact hdpos
    nlinarith
  have hHs : H' = H - s := by simp only [s]; ring
  have hsH : s ≤ H := by linarith
  have hlow : 0 ≤ kepler_equ_hypb H' e N := by
    have ht := sinh_tangent hH hH'
    rw [dH_eq, kep_hypb_eq] at hsd
    rw [kep_hypb_eq]
    have : e * (Real.sinh H + (H' - H) * Real.cosh H) ≤ e * Real.sinh H' := mul_le_mul_of_nonneg_left ht (by linarith)
    rw [hHs] at this ⊢
    nlinarith
  have hup : kepler_equ_hypb H' e N ≤ e * Real.sinh H * s ^ 2 / 2 := by
    have ht := sinh_sub_le hs0 hsH
    rw [dH_eq, kep_hypb_eq] at hsd
    rw [kep_hypb_eq, hHs]
    have : e * Real.sinh (H - s) ≤ e * (Real.sinh H - s * Real.cosh H + s ^ 2 / 2 * Real.sinh H) :=
      mul_le_mul_of_nonneg_left ht (by linarith)
    nlinarith
  refine ⟨hH', hs0, hlow, hup, ?_⟩
  have hc1' := Real.one_le_cosh H'
  have hd' : 2 / 3 * (e * Real.cosh H') ≤ dH H' e := by rw [dH_eq]; nlinarith
  have hd'pos : 0 < dH H' e := by nlinarith
  have hs' : s' = kepler_equ_hypb H' e N / dH H' e := by simp only [s', newtonHypb]; ring
  have hcc : Real.cosh H ≤ Real.cosh H' * Real.exp s := by
    have hE : Real.exp s = Real.cosh s + Real.sinh s := (Real.cosh_add_sinh s).symm
    have hHe : H = H' + s := by rw [hHs]; ring
    rw [hHe, Real.cosh_add, hE, mul_add]
    have h5 : Real.sinh H' ≤ Real.cosh H' := (Real.sinh_lt_cosh _).le
    have h6 : 0 ≤ Real.sinh s := Real.sinh_nonneg_iff.2 hs0
    nlinarith
  rw [hs', div_le_iff₀ hd'pos]
  refine hup.trans ?_
  have hsc : Real.sinh H ≤ Real.cosh H := (Real.sinh_lt_cosh _).le
  have h7 : e * Real.sinh H * s ^ 2 / 2 ≤ e * (Real.cosh H' * Real.exp s) * s ^ 2 / 2 := by
    have : e * Real.sinh H ≤ e * (Real.cosh H' * Real.exp s) := mul_le_mul_of_nonneg_left (hsc.trans hcc) (by linarith)
    nlinarith [sq_nonneg s]
  refine h7.trans ?_
  have h8 : 0 ≤ 3 / 4 * s ^ 2 * Real.exp s := by positivity
  nlinarith [mul_le_mul_of_nonneg_left hd' h8]

/-- The first step from the documented starting value. -/
theorem hypb_first : let H0 := hypbStart N e
    0 ≤ H0 ∧ 0 ≤ kepler_equ_hypb H0 e N ∧ e * Real.sinh H0 = 2 * N ∧ H0 - newtonHypb N e H0 ≤ 27 / 50 := by
  intro H0
  have he0 : e ≠ 0 := by linarith
  have hu0 : 0 ≤ 2 * N / e := by positivity
  have hH0 : H0 = Real.arsinh (2 * N / e) := hypbStart_eq N e
  have hsinh : Real.sinh H0 = 2 * N / e := by rw [hH0, Real.sinh_arsinh]
  have hcosh : Real.cosh H0 = Real.sqrt (1 + (2 * N / e) ^ 2) := by rw [hH0, Real.cosh_arsinh]
  have h0 : 0 ≤ H0 := by rw [hH0]; exact Real.arsinh_nonneg_iff.2 hu0
  have hle : H0 ≤ 2 * N / e := by rw [← hsinh]; exact Real.self_le_sinh_iff.2 h0
  have hleN : 2 * N / e ≤ N := by rw [div_le_iff₀ (by linarith)]; nlinarith
  have hes : e * Real.sinh H0 = 2 * N := by rw [hsinh]; field_simp
  have hf : kepler_equ_hypb H0 e N = N - H0 := by rw [kep_hypb_eq, hes]; ring
  refine ⟨h0, by rw [hf]; linarith, hes, ?_⟩
  have hc : 1 + 50 / 27 * N ≤ e * Real.cosh H0 := by
    rw [hcosh]
    have h1 : (1 + 50 / 27 * N) / e ≤ Real.sqrt (1 + (2 * N / e) ^ 2) := by
      refine Real.le_sqrt_of_sq_le ?_
      have he2 : (0 : ℝ) < e ^ 2 := by positivity
      rw [div_pow, div_pow, div_le_iff₀ he2, add_mul, div_mul_cancel₀ _ he2.ne']
      have : 9 ≤ e ^ 2 := by nlinarith
      nlinarith [sq_nonneg (N - 13 / 4)]
    rw [div_le_iff₀ (by linarith)] at h1
    linarith
  have hc1 := Real.one_le_cosh H0
  have hd : 0 < dH H0 e := by rw [dH_eq]; nlinarith
  have : H0 - newtonHypb N e H0 = (N - H0) / dH H0 e := by rw [newtonHypb, hf]; ring
  rw [this, div_le_iff₀ hd, dH_eq]
  nlinarith

/-- All Newton steps. -/
theorem hypb_steps (k : ℕ) : let x := fun k => (newtonHypb N e)^[k] (hypbStart N e)
    0 ≤ x k ∧ 0 ≤ kepler_equ_hypb (x k) e N ∧ x k ≤ x 0 ∧ 0 ≤ x k - x (k + 1) ∧
      131 / 100 * (x k - x (k + 1)) ≤ (71 / 100 : ℝ) ^ 2 ^ k := by
  intro x
  have hexp : Real.exp (27 / 50) ≤ 173 / 100 := by
    have h1 := Real.exp_one_lt_d9
    have h2 : Real.exp (27 / 50) ^ 50 = Real.exp 1 ^ 27 := by
      rw [← Real.exp_nat_mul, ← Real.exp_nat_mul]; norm_num
    by_contra hlt
    rw [not_le] at hlt
    have h3 : (173 / 100 : ℝ) ^ 50 ≤ Real.exp (27 / 50) ^ 50 := pow_le_pow_left₀ (by norm_num) hlt.le 50
    have h4 : Real.exp 1 ^ 27 ≤ 2.7182818286 ^ 27 := pow_le_pow_left₀ (Real.exp_pos 1).le h1.le 27
    have h5 : (2.7182818286 : ℝ) ^ 27 < (173 / 100) ^ 50 := by norm_num
    linarith
  induction k with
  | zero =>
    obtain ⟨h0, hf, hes, h1⟩ := hypb_first hN he
    obtain ⟨-, hs0, -⟩ := hypb_step hN he h0 hf
    refine ⟨h0, hf, le_rfl, hs0, ?_⟩
    simp only [x, Function.iterate_zero, id_eq, zero_add, Function.iterate_one, pow_zero, pow_one]
    linarith
  | succ k ih =>
    obtain ⟨h0, hf, hle, hs, h1⟩ := ih
    have hx1 : x (k + 1) = newtonHypb N e (x k) := Function.iterate_succ_apply' _ _ _
    have hx2 : x (k + 1 + 1) = newtonHypb N e (x (k + 1)) := Function.iterate_succ_apply' _ _ _
    obtain ⟨a1, a2, a3, a4, a5⟩ := hypb_step hN he h0 hf
    rw [← hx1] at a1 a2 a3 a4 a5
    rw [← hx2] at a5
    obtain ⟨-, b2, -⟩ := hypb_step hN he a1 a3
    rw [← hx2] at b2
    refine ⟨a1, a3, by linarith, b2, ?_⟩
    set s := x k - x (k + 1)
    have hs1 : s ≤ 71 / 131 := by
      have : (71 / 100 : ℝ) ^ 2 ^ k ≤ 71 / 100 := by
        have := pow_le_pow_of_le_one (by norm_num : (0 : ℝ) ≤ 71 / 100) (by norm_num) (Nat.one_le_two_pow (n := k))
        simpa using this
      linarith
    have hes : Real.exp s ≤ 1745 / 1000 := by
      have h2 : Real.exp s ≤ Real.exp (27 / 50) * Real.exp (71 / 131 - 27 / 50) := by
        rw [← Real.exp_add]; exact Real.exp_le_exp.2 (by linarith)
      have h3 : Real.exp (71 / 131 - 27 / 50) ≤ 1007 / 1000 := by
        have h4 := Real.add_one_le_exp (-(71 / 131 - 27 / 50 : ℝ))
        rw [Real.exp_neg] at h4
        have h5 := Real.exp_pos (71 / 131 - 27 / 50)
        rw [le_inv_comm₀ (by norm_num) h5] at h4
        refine h4.trans ?_
        norm_num
      calc Real.exp s ≤ 173 / 100 * (1007 / 1000) :=
            h2.trans (mul_le_mul hexp h3 (Real.exp_pos _).le (by norm_num))
        _ ≤ 1745 / 1000 := by norm_num
    have hp : (71 / 100 : ℝ) ^ 2 ^ (k + 1) = ((71 / 100 : ℝ) ^ 2 ^ k) ^ 2 := by rw [← pow_mul, pow_succ]
    rw [hp]
    have hsq : (131 / 100 * s) ^ 2 ≤ ((71 / 100 : ℝ) ^ 2 ^ k) ^ 2 := pow_le_pow_left₀ (by positivity) h1 2
    have h6 : 3 / 4 * s ^ 2 * Real.exp s ≤ 3 / 4 * s ^ 2 * (1745 / 1000) :=
      mul_le_mul_of_nonneg_left hes (by positivity)
    nlinarith [sq_nonneg s]

/-- Residuals of the Newton iterates: `r_{k+1} ≤ N (0.71^(2^k))²`. -/
theorem hypb_residuals (k : ℕ) :
    |kepler_equ_hypb ((newtonHypb N e)^[k + 1] (hypbStart N e)) e N| ≤ N * (71 / 100 : ℝ) ^ 2 ^ (k + 1) := by
  obtain ⟨h0, hf, hle, hs, h1⟩ := hypb_steps hN he k
  obtain ⟨-, -, a3, a4, -⟩ := hypb_step hN he h0 hf
  obtain ⟨-, -, hes, -⟩ := hypb_first hN he
  rw [Function.iterate_succ_apply', abs_of_nonneg a3]
  refine a4.trans ?_
  simp only [Function.iterate_succ_apply', Function.iterate_zero, id_eq] at hs h1 hle ⊢
  set s := (newtonHypb N e)^[k] (hypbStart N e) - newtonHypb N e ((newtonHypb N e)^[k] (hypbStart N e))
  have hsh : e * Real.sinh ((newtonHypb N e)^[k] (hypbStart N e)) ≤ 2 * N := by
    rw [← hes]; exact mul_le_mul_of_nonneg_left (Real.sinh_le_sinh.2 hle) (by linarith)
  have hp : (71 / 100 : ℝ) ^ 2 ^ (k + 1) = ((71 / 100 : ℝ) ^ 2 ^ k) ^ 2 := by rw [← pow_mul, pow_succ]
  rw [hp]
  have hsq : (131 / 100 * s) ^ 2 ≤ ((71 / 100 : ℝ) ^ 2 ^ k) ^ 2 := pow_le_pow_left₀ (by positivity) h1 2
  have h7 : s ^ 2 ≤ ((71 / 100 : ℝ) ^ 2 ^ k) ^ 2 := by nlinarith [sq_nonneg s]
  nlinarith [mul_le_mul_of_nonneg_left h7 hN, mul_le_mul_of_nonneg_right hsh (sq_nonneg s)]

end

/-- C18 for hyperbolas, the part that holds: for every eccentricity of at least 3 and every `|N| ≤ 10³⁰⁰` (every
value a double can hold up to that size) the default call meets its tolerance; 12 iterations suffice.
Missing from the full claim: eccentricities between 1 and 3 (false near 1 by `C18_hypb_default_refuted`). -/
theorem C18_hypb_default_partial {e : ℝ} (he : 3 ≤ e) (N : ℝ) (hN : |N| ≤ 10 ^ 300) (max_iter : ℕ := 50)
    (hn : 12 ≤ max_iter) :
    ∃ H, solve_kepler_hypb N e defaultTol max_iter = some H ∧ |kepler_equ_hypb H e N| ≤ 1 / 1000000 := by
  have htol : (defaultTol : ℝ) = 1 / 1000000 := by norm_num [defaultTol]
  have key : ∀ N : ℝ, 0 ≤ N → N ≤ 10 ^ 300 →
      ∃ H, solve_kepler_hypb N e defaultTol max_iter = some H ∧ |kepler_equ_hypb H e N| ≤ 1 / 1000000 := by
    intro N hN0 hN
    obtain ⟨k, hk, -, hs, -, hstop⟩ := C13_hypb N e defaultTol max_iter
    refine ⟨_, hs, ?_⟩
    rcases hk.lt_or_eq with h | rfl
    · have := hstop h
      simp only [lt_real, abs_real, decide_eq_false_iff_not, not_lt] at this
      rwa [htol] at this
    · obtain ⟨n, rfl⟩ : ∃ n, k = n + 1 := ⟨k - 1, by omega⟩
      refine (hypb_residuals hN0 he n).trans ?_
      have h2 : (71 / 100 : ℝ) ^ 2 ^ (n + 1) ≤ (71 / 100 : ℝ) ^ 2 ^ 12 :=
        pow_le_pow_of_le_one (by norm_num) (by norm_num) (Nat.pow_le_pow_right (by norm_num) (by omega))
      have h3 : (71 / 100 : ℝ) ^ 2 ^ 12 ≤ (1 / 10) ^ 306 := by
        have h4 : (71 / 100 : ℝ) ^ 7 ≤ 1 / 10 := by norm_num
        calc (71 / 100 : ℝ) ^ 2 ^ 12 ≤ (71 / 100 : ℝ) ^ (7 * 306) :=
              pow_le_pow_of_le_one (by norm_num) (by norm_num) (by norm_num)
          _ = ((71 / 100 : ℝ) ^ 7) ^ 306 := pow_mul _ _ _
          _ ≤ (1 / 10) ^ 306 := pow_le_pow_left₀ (by positivity) h4 306
      calc N * (71 / 100 : ℝ) ^ 2 ^ (n + 1) ≤ 10 ^ 300 * (1 / 10) ^ 306 :=
            mul_le_mul hN (h2.trans h3) (by positivity) (by positivity)
        _ = 1 / 1000000 := by rw [one_div_pow, pow_add 10 300 6]; field_simp; norm_num
  rcases le_total 0 N with h | h
  · exact key N h (by rwa [abs_of_nonneg h] at hN)
  · obtain ⟨H, hH, hres⟩ := key (-N) (by linarith) (by rwa [abs_of_nonpos h] at hN)
    have hodd := C17_hypb_odd (-N) e defaultTol max_iter
    rw [neg_neg, hH] at hodd
    refine ⟨-H, hodd, ?_⟩
    have : kepler_equ_hypb (-H) e N = -kepler_equ_hypb H e (-N) := by
      rw [kep_hypb_eq, kep_hypb_eq, Real.sinh_neg]; ring
    rwa [this, abs_neg]

end Adx
