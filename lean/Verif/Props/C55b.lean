import Verif.Props.C18c
import Verif.Props.C55

/-! # C55, continued: propagation from an apsis up to eccentricity 0.92 -/

namespace Adx
open Set Spec

section
variable {e M : ℝ} (h0 : 0 ≤ e) (h1 : e ≤ 23 / 25) (hM0 : 0 ≤ M) (hMp : M ≤ Real.pi)
include h0 h1 hM0 hMp

/-- The first step from `M` ends between the root and `π`. -/
theorem apsis_first_step {Es : ℝ} (hroot : kepler_equ_elps Es e M = 0) (hE0 : 0 ≤ Es) (hEp : Es ≤ Real.pi) :
    Es ≤ newtonElps M e M ∧ newtonElps M e M ≤ Real.pi := by
  have hpos : 0 < dE M e := by linarith [dE_ge h0 M]
  constructor
  · exact newton_ge_root (fun s => hasDerivAt_elps s e M) hroot hpos
      (fun s hs => dE_mono h0 (hE0.trans hs.1) hs.2 hMp)
      (fun s hs => dE_mono h0 hM0 hs.1 (hs.2.trans hEp))
  · have h : e * Real.sin M ≤ (1 - e * Real.cos M) * (Real.pi - M) := by
      have hp := Real.pi_gt_d2
      have hp' := Real.pi_lt_d2
      have hs : 0 ≤ Real.sin M := Real.sin_nonneg_of_nonneg_of_le_pi hM0 hMp
      rcases le_total (Real.pi / 2) M with hbig | hsmall
      · have hc : Real.cos M ≤ 0 := Real.cos_nonpos_of_pi_div_two_le_of_le hbig (by linarith)
        have hs' : Real.sin M ≤ Real.pi - M := by rw [← Real.sin_pi_sub]; exact Real.sin_le (by linarith)
        have h3 : 0 ≤ e * -Real.cos M * (Real.pi - M) := mul_nonneg (mul_nonneg h0 (by linarith)) (by linarith)
        have h4 : e * Real.sin M ≤ Real.sin M := by nlinarith
        linarith
      · have hcq := cos_le_quartic hM0 (by linarith)
        have hc0 : 0 ≤ Real.cos M := Real.cos_nonneg_of_neg_pi_div_two_le_of_le (by linarith) hsmall
        have hsle : Real.sin M ≤ M := Real.sin_le hM0
        have hx15 : M ≤ 1.575 := by linarith
        have hpoly := poly92 hM0 hx15
        have hc1 : Real.cos M ≤ 1 := Real.cos_le_one M
        have hA : e * (Real.sin M + Real.cos M * (Real.pi - M)) ≤ 23 / 25 * (M + Real.cos M * (Real.pi - M)) := by
          have : 0 ≤ Real.cos M * (Real.pi - M) := mul_nonneg hc0 (by linarith)
          refine mul_le_mul h1 (by linarith) (by linarith) (by norm_num)
        have hB : Real.cos M * (3.14 - M) ≤ (1 - M ^ 2 / 2 + M ^ 4 / 24) * (3.14 - M) :=
          mul_le_mul_of_nonneg_right hcq (by linarith)
        nlinarith
    have : -(Real.pi - M) ≤ kepler_equ_elps M e M / dE M e := by
      rw [le_div_iff₀ hpos, kep_elps_eq, dE_eq]; linarith
    rw [newtonElps_eq, newton]
    linarith

/-- Distance of the iterates from `M` to the root. -/
theorem apsis_fast : ∃ Es, kepler_equ_elps Es e M = 0 ∧
    ∀ m, |(newtonElps M e)^[7 + m + 1] M - Es| ≤ (1 / 2) ^ 2 ^ m := by
  have h1' : e ≤ 49 / 50 := by linarith
  obtain ⟨Es, hroot, hE0, hEp⟩ : ∃ Es, kepler_equ_elps Es e M = 0 ∧ 0 ≤ Es ∧ Es ≤ Real.pi := by
    have hc : ContinuousOn (fun E => kepler_equ_elps E e M) (Icc 0 Real.pi) :=
      (continuous_iff_continuousAt.2 fun s => (hasDerivAt_elps s e M).continuousAt).continuousOn
    have := intermediate_value_Icc Real.pi_pos.le hc
    obtain ⟨Es, hEs, hz⟩ := this (show (0 : ℝ) ∈ Icc (kepler_equ_elps 0 e M) (kepler_equ_elps Real.pi e M) by
      rw [kep_elps_eq, kep_elps_eq, Real.sin_zero, Real.sin_pi]
      constructor <;> linarith)
    exact ⟨Es, hz, hEs.1, hEs.2⟩
  obtain ⟨hf1, hf2⟩ := apsis_first_step h0 h1 hM0 hMp hroot hE0 hEp
  set u : ℕ → ℝ := fun k => (newtonElps M e)^[k + 1] M with hu
  have hstep : ∀ k, u (k + 1) = newtonElps M e (u k) := fun k => by
    simp only [hu, Function.iterate_succ_apply']
  have hin : ∀ k, Es ≤ u k ∧ u k ≤ Real.pi := by
    intro k
    induction k with
    | zero => exact ⟨hf1, hf2⟩
    | succ k ih =>
      rw [hstep]
      have := elps_descent h0 h1' hroot hE0 ih.1 ih.2
      exact ⟨this.1, this.2.1.trans ih.2⟩
  refine ⟨Es, hroot, fun m => ?_⟩
  have hd := decay (δ := fun k => u k - Es) (ρ := 2 / 3) (c := 5 / 2) (D := 3.15) (n := 7) (by norm_num) (by norm_num)
    (fun k => sub_nonneg.2 (hin k).1) (by have := Real.pi_lt_d2; linarith [(hin 0).2])
    (fun k => by rw [hstep]; exact (elps_descent h0 h1' hroot hE0 (hin k).1 (hin k).2).2.2.1)
    (fun k => by rw [hstep]; exact (elps_descent h0 h1' hroot hE0 (hin k).1 (hin k).2).2.2.2)
    (by norm_num) m
  show |u (7 + m) - Es| ≤ _
  rw [abs_of_nonneg (sub_nonneg.2 (hin _).1)]
  refine hd.trans (div_le_self (by positivity) (by norm_num))

end

/-- Residuals of the iterates started at `M`, for every `M`. -/
theorem apsis_residual {e : ℝ} (h0 : 0 ≤ e) (h1 : e ≤ 23 / 25) (M : ℝ) (m : ℕ) :
    |kepler_equ_elps ((newtonElps M e)^[7 + m + 1] M) e M| ≤ 2 * (1 / 2) ^ 2 ^ m := by
  have hlip : ∀ M x Es : ℝ, kepler_equ_elps Es e M = 0 → |kepler_equ_elps x e M| ≤ 2 * |x - Es| := by
    intro M x Es hE
    have hs := Real.abs_sin_sub_sin_le x Es
    have h2 : kepler_equ_elps x e M = (x - Es) - e * (Real.sin x - Real.sin Es) := by
      have := hE
      rw [kep_elps_eq] at this ⊢
      linarith
    rw [h2]
    refine (abs_sub _ _).trans ?_
    rw [abs_mul, abs_of_nonneg h0]
    nlinarith [abs_nonneg (x - Es), abs_nonneg (Real.sin x - Real.sin Es)]
  have key : ∀ M : ℝ, 0 ≤ M → M ≤ Real.pi →
      |kepler_equ_elps ((newtonElps M e)^[7 + m + 1] M) e M| ≤ 2 * (1 / 2) ^ 2 ^ m := by
    intro M hM0 hMp
    obtain ⟨Es, hE, hj⟩ := apsis_fast h0 h1 hM0 hMp
    exact (hlip M _ Es hE).trans (mul_le_mul_of_nonneg_left (hj m) (by norm_num))
  have hneg : ∀ M x : ℝ, ∀ k : ℕ, (newtonElps (-M) e)^[k] (-x) = -(newtonElps M e)^[k] x := by
    intro M x k
    induction k with
    | zero => rfl
    | succ k ih =>
      rw [Function.iterate_succ_apply', Function.iterate_succ_apply', ih, newtonElps, newtonElps]
      have : kepler_equ_elps (-(newtonElps M e)^[k] x) e (-M) = -kepler_equ_elps ((newtonElps M e)^[k] x) e M := by
        rw [kep_elps_eq, kep_elps_eq, Real.sin_neg]; ring
      rw [this, dE_eq, dE_eq, Real.cos_neg]
      ring
  have hper : ∀ (M x : ℝ) (n : ℤ) (k : ℕ),
      (newtonElps (M + 2 * Real.pi * n) e)^[k] (x + 2 * Real.pi * n) = (newtonElps M e)^[k] x + 2 * Real.pi * n := by
    intro M x n k
    induction k with
    | zero => rfl
    | succ k ih =>
      rw [Function.iterate_succ_apply', Function.iterate_succ_apply', ih, newtonElps, newtonElps, kep_elps_eq,
        kep_elps_eq, dE_eq, dE_eq, mul_comm (2 * Real.pi), Real.sin_add_int_mul_two_pi, Real.cos_add_int_mul_two_pi]
      ring
  have key2 : ∀ M : ℝ, |M| ≤ Real.pi →
      |kepler_equ_elps ((newtonElps M e)^[7 + m + 1] M) e M| ≤ 2 * (1 / 2) ^ 2 ^ m := by
    intro M hM
    rcases le_total 0 M with h | h
    · exact key M h ((le_abs_self M).trans hM)
    · have := key (-M) (by linarith) ((neg_le_abs M).trans hM)
      rw [hneg] at this
      have h2 : ∀ x, kepler_equ_elps (-x) e (-M) = -kepler_equ_elps x e M := fun x => by
        rw [kep_elps_eq, kep_elps_eq, Real.sin_neg]; ring
      rwa [h2, abs_neg] at this
  obtain ⟨k, hk⟩ : ∃ k : ℤ, |M - 2 * Real.pi * k| ≤ Real.pi := by
    refine ⟨round (M / (2 * Real.pi)), ?_⟩
    have h := abs_sub_round (M / (2 * Real.pi))
    have hp := Real.pi_pos
    have he : M - 2 * Real.pi * round (M / (2 * Real.pi))
        = 2 * Real.pi * (M / (2 * Real.pi) - round (M / (2 * Real.pi))) := by field_simp
    rw [he, abs_mul, abs_of_pos (by linarith)]
    nlinarith
  have h2 := key2 _ hk
  have h3 := hper (M - 2 * Real.pi * k) (M - 2 * Real.pi * k) k (7 + m + 1)
  rw [sub_add_cancel] at h3
  rw [h3]
  have h4 : ∀ x, kepler_equ_elps (x + 2 * Real.pi * k) e M = kepler_equ_elps x e (M - 2 * Real.pi * k) := fun x => by
    rw [kep_elps_eq, kep_elps_eq, mul_comm (2 * Real.pi), Real.sin_add_int_mul_two_pi]; ring
  rwa [h4]

section
variable {r v : V3 ℝ} {mu : ℝ}

/-- C55, second range: from an apsis (`r·v = 0`) of an ellipse with `e ≤ 0.92` the default call meets its
tolerance at every time of flight. -/
theorem C55_apsis_default_partial (hmu : 0 < mu) (hh : angular_momentum r v ≠ ⟨0, 0, 0⟩)
    (ha : 0 < aOf r v mu) (he : eOf r v mu ≤ 23 / 25) (hσ : sigma_fn r v mu = 0)
    (hsize : Real.sqrt (aOf r v mu) ^ 3 ≤ 10 ^ 300) (t : ℝ) (max_iter : ℕ := 50) (hn : 19 ≤ max_iter) :
    ∃ χ, solve_kepler_uni t (1 / aOf r v mu) (V3.norm r) (sigma_fn r v mu) mu defaultTol max_iter = some χ ∧
      |kepler_equ_uni χ (1 / aOf r v mu) (V3.norm r) (sigma_fn r v mu) t mu| ≤ 1 / 1000000 := by
  have htol : (defaultTol : ℝ) = 1 / 1000000 := by norm_num [defaultTol]
  have hb : 0 < Real.sqrt (aOf r v mu) := Real.sqrt_pos.2 ha
  have he0 : 0 ≤ eOf r v mu := V3.norm_nonneg _
  obtain ⟨E0, -, -, hE0⟩ := C53_eccentric_exists hmu hh ha
  have hsin : eOf r v mu * Real.sin E0 = 0 := by
    have := ((isEccentric_iff hmu ha).1 hE0).2
    rw [hσ] at this
    rcases mul_eq_zero.1 this.symm with h | h
    · exact absurd h hb.ne'
    · exact h
  obtain ⟨k, hk, -, hs, -, hstop⟩ := C13_uni t (1 / aOf r v mu) (V3.norm r) (sigma_fn r v mu) mu defaultTol max_iter
  refine ⟨_, hs, ?_⟩
  rcases hk.lt_or_eq with h | h
  · have := hstop h
    simp only [lt_real, abs_real, decide_eq_false_iff_not, not_lt, htol] at this
    exact this
  · rw [C55_elliptic_newton hmu ha hE0, (C53_elliptic_equation hmu ha hE0 t _).1, ← meanAt, hsin, add_zero]
    obtain ⟨n, rfl⟩ : ∃ n, k = 7 + n + 1 := ⟨k - 8, by omega⟩
    have hres := apsis_residual he0 he (meanAt r v mu E0 t) n
    rw [abs_mul, abs_of_pos (by positivity)]
    have hsmall : 2 * (1 / 2 : ℝ) ^ 2 ^ n ≤ (1 / 10) ^ 306 := by
      have h8 : (1 / 2 : ℝ) ^ 4 ≤ 1 / 10 := by norm_num
      have h9 : (1 / 2 : ℝ) ^ 2 ^ n ≤ (1 / 2) ^ (4 * 306) * (1 / 2) := by
        rw [← pow_succ]
        refine pow_le_pow_of_le_one (by norm_num) (by norm_num) ?_
        calc 4 * 306 + 1 ≤ 2 ^ 11 := by norm_num
          _ ≤ 2 ^ n := Nat.pow_le_pow_right (by norm_num) (by omega)
      have h10 : (1 / 2 : ℝ) ^ (4 * 306) ≤ (1 / 10) ^ 306 := by
        rw [pow_mul]; exact pow_le_pow_left₀ (by positivity) h8 306
      generalize (1 / 2 : ℝ) ^ (4 * 306) = p at h9 h10
      linarith
    calc Real.sqrt (aOf r v mu) ^ 3 * |kepler_equ_elps _ _ _| ≤ 10 ^ 300 * (1 / 10) ^ 306 :=
          mul_le_mul hsize (hres.trans hsmall) (abs_nonneg _) (by positivity)
      _ = 1 / 1000000 := by
          rw [show (306 : ℕ) = 300 + 6 by norm_num, pow_add, ← mul_assoc, ← mul_pow]; norm_num

/-- C55, `kepler` from an apsis. -/
theorem C55_kepler_apsis_partial (hmu : 0 < mu) (hh : angular_momentum r v ≠ ⟨0, 0, 0⟩)
    (ha : 0 < aOf r v mu) (he : eOf r v mu ≤ 23 / 25) (hσ : sigma_fn r v mu = 0)
    (hsize : Real.sqrt (aOf r v mu) ^ 3 ≤ 10 ^ 300)
    {ts : List ℝ} {rs vs : List (V3 ℝ)} (hk : kepler ts r v mu = some (rs, vs)) {i : ℕ} {r' v' : V3 ℝ}
    (hr' : rs[i]? = some r') (hv' : vs[i]? = some v') :
    ∃ t t', ts[i]? = some t ∧ |t' - t| ≤ 1 / 1000000 / Real.sqrt mu ∧ (r', v') = exactProp r v mu t' := by
  obtain ⟨t, χ, t', h1, h2, h3, h4, -⟩ := C23_exact_up_to_time hmu hh hk hr' hv'
  obtain ⟨χ', h5, h6⟩ := C55_apsis_default_partial hmu hh ha he hσ hsize t 50 (by norm_num)
  have h7 : solve_kepler_uni t (alphaOf r v mu) (V3.norm r) (sigma_fn r v mu) mu defaultTol 50 = some χ' := h5
  obtain rfl : χ' = χ := Option.some.inj (h7.symm.trans h2)
  refine ⟨t, t', h1, ?_, h4⟩
  rw [h3, add_sub_cancel_left, abs_div, abs_of_pos (Real.sqrt_pos.2 hmu)]
  exact div_le_div_of_nonneg_right h6 (Real.sqrt_nonneg _)

end

/-- A transfer ellipse from its periapsis: `r = (1,0,0)`, `v = (0,√1.9,0)`, `a = 10`, `e = 0.9`. -/
example : angular_momentum (⟨1, 0, 0⟩ : V3 ℝ) ⟨0, Real.sqrt 1.9, 0⟩ ≠ ⟨0, 0, 0⟩ ∧
    aOf ⟨1, 0, 0⟩ ⟨0, Real.sqrt 1.9, 0⟩ 1 = 10 ∧
    eOf ⟨1, 0, 0⟩ ⟨0, Real.sqrt 1.9, 0⟩ 1 = 9 / 10 ∧ sigma_fn (⟨1, 0, 0⟩ : V3 ℝ) ⟨0, Real.sqrt 1.9, 0⟩ 1 = 0 := by
  have hq : Real.sqrt 1.9 ^ 2 = 1.9 := Real.sq_sqrt (by norm_num)
  have h : angular_momentum (⟨1, 0, 0⟩ : V3 ℝ) ⟨0, Real.sqrt 1.9, 0⟩ ≠ ⟨0, 0, 0⟩ := by
    intro h
    have := congrArg V3.z h
    simp only [angular_momentum, V3.cross, one_mul, mul_zero, sub_zero] at this
    rw [this] at hq; norm_num at hq
  have hn : V3.norm (⟨1, 0, 0⟩ : V3 ℝ) = 1 := by rw [norm_unfold]; simp
  have hn' : V3.norm (⟨0, Real.sqrt 1.9, 0⟩ : V3 ℝ) ^ 2 = 1.9 := by
    rw [norm_unfold, Real.sq_sqrt (by positivity)]; simp only [hq]; norm_num
  have ha : aOf ⟨1, 0, 0⟩ ⟨0, Real.sqrt 1.9, 0⟩ 1 = 10 := by
    simp only [aOf, semimajor_axis, hn, hn', Nat.cast_ofNat, Nat.cast_one]; norm_num
  have hs : sigma_fn (⟨1, 0, 0⟩ : V3 ℝ) ⟨0, Real.sqrt 1.9, 0⟩ 1 = 0 := by
    have := sigma_rv (r := ⟨1, 0, 0⟩) (v := ⟨0, Real.sqrt 1.9, 0⟩) (mu := 1) one_pos
    simp only [V3.dot, mul_zero, zero_mul, add_zero, Real.sqrt_one, one_mul] at this
    exact this.symm
  refine ⟨h, ha, ?_, hs⟩
  have h1 := pOf_inv (r := ⟨1, 0, 0⟩) (v := ⟨0, Real.sqrt 1.9, 0⟩) (mu := 1) one_pos h
  have h2 := pOf_alpha (r := ⟨1, 0, 0⟩) (v := ⟨0, Real.sqrt 1.9, 0⟩) (mu := 1) one_pos h
  have hα : alphaOf (⟨1, 0, 0⟩ : V3 ℝ) ⟨0, Real.sqrt 1.9, 0⟩ 1 = 1 / 10 := by
    have : alphaOf (⟨1, 0, 0⟩ : V3 ℝ) ⟨0, Real.sqrt 1.9, 0⟩ 1 = 1 / aOf ⟨1, 0, 0⟩ ⟨0, Real.sqrt 1.9, 0⟩ 1 := rfl
    rw [this, ha]
  rw [hα, hn, hs] at h1
  rw [hα, ← h1] at h2
  have he0 : 0 ≤ eOf (⟨1, 0, 0⟩ : V3 ℝ) ⟨0, Real.sqrt 1.9, 0⟩ 1 := V3.norm_nonneg _
  have : eOf (⟨1, 0, 0⟩ : V3 ℝ) ⟨0, Real.sqrt 1.9, 0⟩ 1 ^ 2 = (9 / 10) ^ 2 := by linarith
  exact (sq_eq_sq₀ he0 (by norm_num)).1 this

end Adx
