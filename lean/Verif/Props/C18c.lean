import Verif.Props.C17
import Verif.Props.C18
import Verif.Lemmas.NewtonConvex

/-! # C18, continued: ellipses up to eccentricity 0.98

For `0 ≤ M ≤ π` the first Newton step ends between the root and `π`; from there the iterates decrease to the
root, first linearly (factor 2/3), then quadratically. -/

namespace Adx
open Set

/-! ### elementary inequalities -/

theorem cos_le_quartic {x : ℝ} (h0 : 0 ≤ x) (h2 : x ≤ 2) : Real.cos x ≤ 1 - x ^ 2 / 2 + x ^ 4 / 24 := by
  rcases h0.eq_or_lt with rfl | hx
  · simp
  have hs : x / 2 - (x / 2) ^ 3 / 6 ≤ Real.sin (x / 2) := by
    have := Real.sin_gt_sub_cube (by linarith : 0 < x / 2)
    have h3 : 0 < (x / 2) ^ 3 := by positivity
    linarith
  have hnn : 0 ≤ x / 2 - (x / 2) ^ 3 / 6 := by nlinarith [sq_nonneg x]
  have hc : Real.cos x = 1 - 2 * Real.sin (x / 2) ^ 2 := by
    have := Real.cos_sq_add_sin_sq (x / 2)
    rw [show x = 2 * (x / 2) by ring, Real.cos_two_mul]
    rw [show 2 * (x / 2) / 2 = x / 2 by ring]
    linarith
  have hsq := pow_le_pow_left₀ hnn hs 2
  rw [hc]
  nlinarith [pow_nonneg h0 6]

/-- Cusa's inequality. -/
theorem cusa {x : ℝ} (h0 : 0 ≤ x) (hp : x ≤ Real.pi) : 3 * Real.sin x ≤ x * (2 + Real.cos x) := by
  have d2 : ∀ s, HasDerivAt (fun s => Real.sin s - s * Real.cos s) (s * Real.sin s) s := fun s => by
    refine ((Real.hasDerivAt_sin s).fun_sub ((hasDerivAt_id' s).fun_mul (Real.hasDerivAt_cos s))).congr_deriv ?_
    ring
  have h2 : ∀ s ∈ Icc 0 Real.pi, 0 ≤ Real.sin s - s * Real.cos s := fun s hs => by
    have := mono_of_deriv_nonneg d2 (fun s hs => mul_nonneg hs.1 (Real.sin_nonneg_of_mem_Icc hs))
      (left_mem_Icc.2 (hs.1.trans hs.2)) hs hs.1
    simpa using this
  have d1 : ∀ s, HasDerivAt (fun s => 2 - 2 * Real.cos s - s * Real.sin s) (Real.sin s - s * Real.cos s) s := fun s => by
    refine ((((Real.hasDerivAt_cos s).const_mul 2).const_sub 2).fun_sub
      ((hasDerivAt_id' s).fun_mul (Real.hasDerivAt_sin s))).congr_deriv ?_
    ring
  have h1 : ∀ s ∈ Icc 0 Real.pi, 0 ≤ 2 - 2 * Real.cos s - s * Real.sin s := fun s hs => by
    have := mono_of_deriv_nonneg d1 h2 (left_mem_Icc.2 (hs.1.trans hs.2)) hs hs.1
    simpa using this
  have d0 : ∀ s, HasDerivAt (fun s => s * (2 + Real.cos s) - 3 * Real.sin s) (2 - 2 * Real.cos s - s * Real.sin s) s :=
    fun s => by
    refine (((hasDerivAt_id' s).fun_mul ((Real.hasDerivAt_cos s).const_add 2)).fun_sub
      ((Real.hasDerivAt_sin s).const_mul 3)).congr_deriv ?_
    ring
  have := mono_of_deriv_nonneg d0 h1 (left_mem_Icc.2 Real.pi_pos.le) ⟨h0, hp⟩ h0
  simp only [zero_mul, Real.sin_zero, mul_zero, sub_zero] at this
  linarith

/-- A chord of `sin` from the origin. -/
theorem sin_chord {y x : ℝ} (h0 : 0 ≤ y) (hyx : y ≤ x) (hp : x ≤ Real.pi) : y * Real.sin x ≤ x * Real.sin y := by
  rcases h0.eq_or_lt with rfl | hy
  · simp
  have hx : 0 < x := hy.trans_le hyx
  have hc := strictConcaveOn_sin_Icc.concaveOn
  have h := hc.2 (left_mem_Icc.2 Real.pi_pos.le) (⟨hx.le, hp⟩ : x ∈ Icc 0 Real.pi)
    (sub_nonneg.2 ((div_le_one hx).2 hyx)) (div_nonneg h0 hx.le) (by ring)
  simp only [smul_eq_mul, Real.sin_zero, mul_zero, zero_add] at h
  rw [div_mul_cancel₀ _ hx.ne', div_mul_eq_mul_div, div_le_iff₀ hx] at h
  linarith

theorem poly92 {x : ℝ} (hx0 : 0 ≤ x) (hx15 : x ≤ 1.575) :
    23 / 25 * (x + (1 - x ^ 2 / 2 + x ^ 4 / 24) * (3.14 - x)) ≤ 3.14 - x := by
  have h : 0 ≤ 0.2512 - x + 1.4444 * x ^ 2 - 0.46 * x ^ 3 - 0.12037 * x ^ 4 + 0.03833 * x ^ 5 := by
    nlinarith [sq_nonneg (x - 0.45), mul_nonneg hx0 (sq_nonneg (x - 0.45)),
      mul_nonneg (mul_nonneg hx0 hx0) (sub_nonneg.2 hx15), mul_nonneg (pow_nonneg hx0 3) (sub_nonneg.2 hx15),
      mul_nonneg hx0 (sub_nonneg.2 hx15)]
  nlinarith [pow_nonneg hx0 5, pow_nonneg hx0 4, pow_nonneg hx0 3]

theorem poly98 {x : ℝ} (hx0 : 0 ≤ x) (hx15 : x ≤ 1.575) :
    49 / 50 * (x + (1 - x ^ 2 / 2 + x ^ 4 / 24) * (3.14 - x)) ≤ 3.14 - x + x / 2 := by
  have h : 0 ≤ 0.0628 - 0.5 * x + 1.5386 * x ^ 2 - 0.49 * x ^ 3 - 0.12822 * x ^ 4 + 0.04083 * x ^ 5 := by
    nlinarith [sq_nonneg (x - 0.17), mul_nonneg hx0 (sq_nonneg (x - 0.17)),
      mul_nonneg (mul_nonneg hx0 hx0) (sub_nonneg.2 hx15), mul_nonneg (pow_nonneg hx0 3) (sub_nonneg.2 hx15),
      mul_nonneg hx0 (sub_nonneg.2 hx15)]
  nlinarith [pow_nonneg hx0 5, pow_nonneg hx0 4, pow_nonneg hx0 3]

/-! ### the iteration -/

section
variable {e M : ℝ} (h0 : 0 ≤ e) (h1 : e ≤ 49 / 50) (hM0 : 0 ≤ M) (hMp : M ≤ Real.pi)

theorem newtonElps_eq (M e x : ℝ) : newtonElps M e x = newton (fun E => kepler_equ_elps E e M) (fun E => dE E e) x := rfl

theorem hasDerivAt_dE (s : ℝ) : HasDerivAt (fun E => dE E e) (e * Real.sin s) s := by
  have : (fun E => dE E e) = fun E => 1 - e * Real.cos E := by funext E; rw [dE_eq]
  rw [this]
  refine (((Real.hasDerivAt_cos s).const_mul e).const_sub 1).congr_deriv ?_
  ring

include h0 in
theorem dE_mono {x y : ℝ} (hx : 0 ≤ x) (hxy : x ≤ y) (hy : y ≤ Real.pi) : dE x e ≤ dE y e := by
  rw [dE_eq, dE_eq]
  have := Real.cos_le_cos_of_nonneg_of_le_pi hx hy hxy
  nlinarith

include h0 h1 in
/-- One step from between the root and `π`. -/
theorem elps_descent {Es x : ℝ} (hroot : kepler_equ_elps Es e M = 0) (hE0 : 0 ≤ Es) (hEx : Es ≤ x) (hx : x ≤ Real.pi) :
    Es ≤ newtonElps M e x ∧ newtonElps M e x ≤ x ∧ newtonElps M e x - Es ≤ 2 / 3 * (x - Es) ∧
      newtonElps M e x - Es ≤ 5 / 2 * (x - Es) ^ 2 := by
  have hpos : 0 < dE x e := by linarith [dE_ge h0 x]
  have hlow : Es ≤ newtonElps M e x := by
    refine newton_ge_root (fun s => hasDerivAt_elps s e M) hroot hpos
      (fun s hs => dE_mono h0 (hE0.trans hs.1) hs.2 hx) (fun s hs => ?_)
    have : s = x := le_antisymm (hs.2.trans hEx) hs.1
    rw [this]
  have hlin : newtonElps M e x - Es ≤ 2 / 3 * (x - Es) := by
    have := newton_lin (f := fun E => kepler_equ_elps E e M) (f' := fun E => dE E e) (a := Es) (x := x) (κ := 1 / 3) hpos ?_
    · rw [newtonElps_eq]; linarith
    · rcases (hE0.trans hEx).eq_or_lt with hz | hxpos
      · have : Es = x := by linarith
        rw [← this, hroot]; simp
      have hch := sin_chord hE0 hEx hx
      have hcu := cusa (hE0.trans hEx) hx
      rw [kep_elps_eq] at hroot
      simp only [kep_elps_eq, dE_eq]
      -- x(sin x − sin Es) ≤ (x − Es) sin x ≤ (x − Es) x (2 + cos x)/3
      have h3 : x * (e * (Real.sin x - Real.sin Es)) ≤ x * (e * ((x - Es) * (2 + Real.cos x) / 3)) := by
        have h4 : x * (Real.sin x - Real.sin Es) ≤ x * ((x - Es) * (2 + Real.cos x) / 3) := by
          have := mul_le_mul_of_nonneg_left hcu (sub_nonneg.2 hEx)
          nlinarith
        have := mul_le_mul_of_nonneg_left h4 h0
        linarith
      have h5 := le_of_mul_le_mul_left h3 hxpos
      have h6 : 0 ≤ (1 - e) * (x - Es) := mul_nonneg (by linarith) (by linarith)
      nlinarith
  refine ⟨hlow, by linarith, hlin, ?_⟩
  have hq := newton_quad (f := fun E => kepler_equ_elps E e M) (f' := fun E => dE E e) (f'' := fun s => e * Real.sin s)
    (C := 5) (fun s => hasDerivAt_elps s e M) hasDerivAt_dE hEx hroot hpos (fun s hs => ?_)
  · rw [newtonElps_eq]; exact hq
  · have h2 := dE_mono h0 (hE0.trans hs.1) hs.2 hx
    have h3 : e * Real.sin s ≤ 5 * dE s e := by
      rw [dE_eq]
      have hsc := Real.sin_sq_add_cos_sq s
      have h4 : (e * (Real.sin s + 5 * Real.cos s)) ^ 2 ≤ 5 ^ 2 := by
        have h5 : (Real.sin s + 5 * Real.cos s) ^ 2 ≤ 26 := by nlinarith [sq_nonneg (5 * Real.sin s - Real.cos s)]
        have h6 : e ^ 2 ≤ (49 / 50) ^ 2 := pow_le_pow_left₀ h0 h1 2
        rw [mul_pow]
        nlinarith [sq_nonneg (Real.sin s + 5 * Real.cos s), sq_nonneg e]
      have := abs_le_of_sq_le_sq' h4 (by norm_num)
      linarith [this.2]
    linarith

include h0 hM0 hMp in
theorem elpsStart_range (h1' : e ≤ 1) : M ≤ elpsStart M e ∧ elpsStart M e ≤ Real.pi := by
  have hs : 0 ≤ Real.sin M := Real.sin_nonneg_of_nonneg_of_le_pi hM0 hMp
  have hc := Real.neg_one_le_cos M
  have hc1 := Real.cos_le_one M
  have heq : elpsStart M e = M + e * Real.sin M * (1 + e * Real.cos M) := by
    simp only [elpsStart, sin_real, Nat.cast_ofNat, Real.sin_two_mul]; ring
  have h3 : 0 ≤ 1 + e * Real.cos M := by nlinarith
  rw [heq]
  refine ⟨by have := mul_nonneg (mul_nonneg h0 hs) h3; linarith, ?_⟩
  -- with y = π - M
  set y := Real.pi - M with hy
  have hsy : Real.sin M = Real.sin y := by rw [hy, Real.sin_pi_sub]
  have hcy : Real.cos M = -Real.cos y := by rw [hy, Real.cos_pi_sub]; ring
  have hy0 : 0 ≤ y := by linarith
  have hsy' : Real.sin y ≤ y := Real.sin_le hy0
  rw [hsy] at hs
  rw [hsy, hcy]
  rw [hcy] at hc hc1
  suffices h : e * Real.sin y * (1 + e * -Real.cos y) ≤ y by linarith
  rcases le_total 0 (Real.cos y) with hcp | hcn
  · have : e * (1 + e * -Real.cos y) ≤ 1 := by nlinarith [mul_nonneg h0 hcp, mul_nonneg (mul_nonneg h0 h0) hcp]
    nlinarith
  · have hpi := Real.pi_gt_three
    have hyge : Real.pi / 2 ≤ y := by
      by_contra hlt
      push Not at hlt
      have := Real.cos_pos_of_mem_Ioo ⟨by linarith, hlt⟩
      linarith
    have hsc := Real.sin_sq_add_cos_sq y
    have hs1 := Real.sin_le_one y
    have h4 : Real.sin y * -Real.cos y ≤ 1 / 2 := by nlinarith [sq_nonneg (Real.sin y + Real.cos y)]
    have h5 : e * Real.sin y ≤ 1 := by nlinarith
    have h6 : e ^ 2 * (Real.sin y * -Real.cos y) ≤ 1 / 2 := by
      have : 0 ≤ Real.sin y * -Real.cos y := mul_nonneg hs (by linarith)
      have : e ^ 2 ≤ 1 := by nlinarith
      nlinarith
    nlinarith

include h0 h1 hM0 hMp in
/-- The tangent at the starting value is still nonnegative at `π`. -/
theorem elps_first_tangent : let x := elpsStart M e
    0 ≤ kepler_equ_elps x e M + dE x e * (Real.pi - x) := by
  intro x
  obtain ⟨hx1, hx2⟩ := elpsStart_range h0 hM0 hMp (by linarith)
  have hp := Real.pi_gt_d2
  have hp' := Real.pi_lt_d2
  have hx0 : 0 ≤ x := hM0.trans hx1
  have hg : x - M = e * Real.sin M * (1 + e * Real.cos M) := by
    simp only [x, elpsStart, sin_real, Nat.cast_ofNat, Real.sin_two_mul]; ring
  rw [kep_elps_eq, dE_eq]
  have hsx : 0 ≤ Real.sin x := Real.sin_nonneg_of_nonneg_of_le_pi hx0 hx2
  rcases le_total (Real.pi / 2) x with hbig | hsmall
  · have hc : Real.cos x ≤ 0 := Real.cos_nonpos_of_pi_div_two_le_of_le hbig (by linarith)
    have hs : Real.sin x ≤ Real.pi - x := by rw [← Real.sin_pi_sub]; exact Real.sin_le (by linarith)
    have h3 : 0 ≤ e * -Real.cos x * (Real.pi - x) := mul_nonneg (mul_nonneg h0 (by linarith)) (by linarith)
    have h4 : e * Real.sin x ≤ Real.sin x := by nlinarith
    have h5 : M ≤ x := hx1
    linarith
  · have hcq := cos_le_quartic hx0 (by linarith)
    have hc0 : 0 ≤ Real.cos x := Real.cos_nonneg_of_neg_pi_div_two_le_of_le (by linarith) hsmall
    have hsle : Real.sin x ≤ x := Real.sin_le hx0
    have hx15 : x ≤ 1.575 := by linarith
    have hw : (1.565 : ℝ) ≤ Real.pi - x := by linarith
    have hlow : (1 - e * (1 - x ^ 2 / 2 + x ^ 4 / 24)) * (3.14 - x) ≤ (1 - e * Real.cos x) * (Real.pi - x) := by
      have ha : 1 - e * (1 - x ^ 2 / 2 + x ^ 4 / 24) ≤ 1 - e * Real.cos x := by
        have := mul_le_mul_of_nonneg_left hcq h0
        linarith
      have hb : 0 ≤ 1 - e * (1 - x ^ 2 / 2 + x ^ 4 / 24) := by
        have : 1 - x ^ 2 / 2 + x ^ 4 / 24 ≤ 1 := by
          have hx3 : x ^ 2 ≤ 3 := by nlinarith
          nlinarith [sq_nonneg x]
        nlinarith
      exact mul_le_mul ha (by linarith) (by linarith) (hb.trans ha)
    rcases le_total e (23 / 25) with he | he
    · have h6 : 0 ≤ x - M := by linarith
      suffices h : e * x ≤ (1 - e * (1 - x ^ 2 / 2 + x ^ 4 / 24)) * (3.14 - x) by nlinarith
      have hmono : e * (x + (1 - x ^ 2 / 2 + x ^ 4 / 24) * (3.14 - x))
          ≤ 23 / 25 * (x + (1 - x ^ 2 / 2 + x ^ 4 / 24) * (3.14 - x)) := by
        refine mul_le_mul_of_nonneg_right he ?_
        have : 0 ≤ (1 - x ^ 2 / 2 + x ^ 4 / 24) * (3.14 - x) :=
          mul_nonneg (by linarith) (by linarith)
        linarith
      have hnum : 23 / 25 * (x + (1 - x ^ 2 / 2 + x ^ 4 / 24) * (3.14 - x)) ≤ 3.14 - x := by
        exact poly92 hx0 hx15
      linarith
    · have hMx : M ≤ x := hx1
      have hcM : 0 ≤ Real.cos M := Real.cos_nonneg_of_neg_pi_div_two_le_of_le (by linarith) (by linarith)
      have hsM : 0 ≤ Real.sin M := Real.sin_nonneg_of_nonneg_of_le_pi hM0 hMp
      have hM1 : M ≤ 1 := by
        by_contra hlt
        push Not at hlt
        have h6 : Real.sin 1 ≤ Real.sin M :=
          Real.sin_le_sin_of_le_of_le_pi_div_two (by linarith) (by linarith) hlt.le
        have h7 : (5 / 6 : ℝ) ≤ Real.sin 1 := by
          have := Real.sin_gt_sub_cube (x := 1) one_pos
          linarith
        have h8 : e * Real.sin M ≤ e * Real.sin M * (1 + e * Real.cos M) := by
          have := mul_nonneg (mul_nonneg h0 hsM) (mul_nonneg h0 hcM)
          linarith
        nlinarith
      have hgM : M ≤ x - M := by
        have h6 : 5 / 6 * M ≤ Real.sin M := by
          rcases hM0.eq_or_lt with h | h
          · rw [← h]; simp
          have := Real.sin_gt_sub_cube h
          nlinarith [mul_nonneg hM0 (mul_nonneg hM0 (sub_nonneg.2 hM1)), mul_nonneg hM0 (sub_nonneg.2 hM1)]
        have h7 : 1 / 2 ≤ Real.cos M := by
          have := Real.one_sub_sq_div_two_le_cos (x := M)
          nlinarith
        have h8 : 23 / 25 * (5 / 6 * M) ≤ e * Real.sin M := mul_le_mul he h6 (by linarith) h0
        have h9 : (1.46 : ℝ) ≤ 1 + e * Real.cos M := by nlinarith
        rw [hg]
        have := mul_le_mul h8 h9 (by norm_num) (mul_nonneg h0 hsM)
        linarith
      suffices h : e * x ≤ (1 - e * (1 - x ^ 2 / 2 + x ^ 4 / 24)) * (3.14 - x) + x / 2 by nlinarith
      have hmono : e * (x + (1 - x ^ 2 / 2 + x ^ 4 / 24) * (3.14 - x))
          ≤ 49 / 50 * (x + (1 - x ^ 2 / 2 + x ^ 4 / 24) * (3.14 - x)) := by
        refine mul_le_mul_of_nonneg_right h1 ?_
        have : 0 ≤ (1 - x ^ 2 / 2 + x ^ 4 / 24) * (3.14 - x) :=
          mul_nonneg (by linarith) (by linarith)
        linarith
      have hnum : 49 / 50 * (x + (1 - x ^ 2 / 2 + x ^ 4 / 24) * (3.14 - x)) ≤ 3.14 - x + x / 2 := by
        exact poly98 hx0 hx15
      linarith

include h0 h1 hM0 hMp in
/-- The first step ends between the root and `π`. -/
theorem elps_first_step {Es : ℝ} (hroot : kepler_equ_elps Es e M = 0) (hE0 : 0 ≤ Es) (hEp : Es ≤ Real.pi) :
    Es ≤ newtonElps M e (elpsStart M e) ∧ newtonElps M e (elpsStart M e) ≤ Real.pi := by
  obtain ⟨hx1, hx2⟩ := elpsStart_range h0 hM0 hMp (by linarith)
  have hpos : 0 < dE (elpsStart M e) e := by linarith [dE_ge h0 (elpsStart M e)]
  constructor
  · exact newton_ge_root (fun s => hasDerivAt_elps s e M) hroot hpos
      (fun s hs => dE_mono h0 (hE0.trans hs.1) hs.2 hx2)
      (fun s hs => dE_mono h0 (hM0.trans hx1) hs.1 (hs.2.trans hEp))
  · have h := elps_first_tangent h0 h1 hM0 hMp
    simp only at h
    have : -(Real.pi - elpsStart M e) ≤ kepler_equ_elps (elpsStart M e) e M / dE (elpsStart M e) e := by
      rw [le_div_iff₀ hpos]; linarith
    rw [newtonElps_eq, newton]
    linarith

include h0 h1 hM0 hMp in
/-- From the thirteenth step on the iterates decrease and lie within `10⁻⁶` right of the root. -/
theorem elps_fast : ∃ Es, kepler_equ_elps Es e M = 0 ∧
    (∀ j, 13 ≤ j → Es ≤ (newtonElps M e)^[j] (elpsStart M e) ∧ (newtonElps M e)^[j] (elpsStart M e) - Es ≤ 1e-6) ∧
    (∀ j, 13 ≤ j → (newtonElps M e)^[j + 1] (elpsStart M e) ≤ (newtonElps M e)^[j] (elpsStart M e)) := by
  obtain ⟨Es, hroot, hE0, hEp⟩ : ∃ Es, kepler_equ_elps Es e M = 0 ∧ 0 ≤ Es ∧ Es ≤ Real.pi := by
    have hc : ContinuousOn (fun E => kepler_equ_elps E e M) (Icc 0 Real.pi) :=
      (continuous_iff_continuousAt.2 fun s => (hasDerivAt_elps s e M).continuousAt).continuousOn
    have := intermediate_value_Icc Real.pi_pos.le hc
    obtain ⟨Es, hEs, hz⟩ := this (show (0 : ℝ) ∈ Icc (kepler_equ_elps 0 e M) (kepler_equ_elps Real.pi e M) by
      rw [kep_elps_eq, kep_elps_eq, Real.sin_zero, Real.sin_pi]
      constructor <;> linarith)
    exact ⟨Es, hz, hEs.1, hEs.2⟩
  obtain ⟨hf1, hf2⟩ := elps_first_step h0 h1 hM0 hMp hroot hE0 hEp
  set u : ℕ → ℝ := fun k => (newtonElps M e)^[k + 1] (elpsStart M e) with hu
  have hstep : ∀ k, u (k + 1) = newtonElps M e (u k) := fun k => by
    simp only [hu, Function.iterate_succ_apply']
  have hin : ∀ k, Es ≤ u k ∧ u k ≤ Real.pi := by
    intro k
    induction k with
    | zero => exact ⟨hf1, hf2⟩
    | succ k ih =>
      rw [hstep]
      have := elps_descent h0 h1 hroot hE0 ih.1 ih.2
      exact ⟨this.1, this.2.1.trans ih.2⟩
  refine ⟨Es, hroot, fun j hj => ?_, fun j hj => ?_⟩
  swap
  · have := (elps_descent h0 h1 hroot hE0 (hin (j - 1)).1 (hin (j - 1)).2).2.1
    rw [← hstep] at this
    simpa only [hu, show j - 1 + 1 = j by omega] using this
  have hd := decay (δ := fun k => u k - Es) (ρ := 2 / 3) (c := 5 / 2) (D := 3.15) (n := 7) (by norm_num) (by norm_num)
    (fun k => sub_nonneg.2 (hin k).1) (by have := Real.pi_lt_d2; linarith [(hin 0).2])
    (fun k => by rw [hstep]; exact (elps_descent h0 h1 hroot hE0 (hin k).1 (hin k).2).2.2.1)
    (fun k => by rw [hstep]; exact (elps_descent h0 h1 hroot hE0 (hin k).1 (hin k).2).2.2.2)
    (by norm_num) (j - 8)
  have hj : 7 + (j - 8) + 1 = j := by omega
  simp only [hu, hj] at hd
  have hge := (hin (j - 1)).1
  simp only [hu, show j - 1 + 1 = j by omega] at hge
  refine ⟨hge, hd.trans ?_⟩
  have h2 : (1 / 2 : ℝ) ^ 2 ^ (j - 8) ≤ (1 / 2) ^ 2 ^ 5 :=
    pow_le_pow_of_le_one (by norm_num) (by norm_num) (Nat.pow_le_pow_right (by norm_num) (by omega))
  rw [div_le_iff₀ (by norm_num)]
  refine h2.trans (by norm_num)

end

/-- C18, the part that holds: for every mean anomaly and every eccentricity up to `0.98` the default call (and
every call with at least 14 iterations) returns a value whose residual is at most `e · 10⁻¹²/2`.
Missing from the full claim: eccentricities above `0.98` (false near 1 by `C18_elps_refuted`). -/
theorem C18_elps_default_high_partial {e : ℝ} (h0 : 0 ≤ e) (h1 : e ≤ 49 / 50) (M : ℝ) (max_iter : ℕ := 20)
    (hn : 14 ≤ max_iter) :
    ∃ E, solve_kepler_elps M e defaultTol max_iter = some E ∧
      |kepler_equ_elps E e M| ≤ e * (1 / 1000000) ^ 2 / 2 := by
  have htol : (defaultTol : ℝ) = 1 / 1000000 := by norm_num [defaultTol]
  have key : ∀ M : ℝ, 0 ≤ M → M ≤ Real.pi → ∃ E, solve_kepler_elps M e defaultTol max_iter = some E ∧
      |kepler_equ_elps E e M| ≤ e * (1 / 1000000) ^ 2 / 2 := by
    intro M hM0 hMp
    obtain ⟨Es, -, hj, hm⟩ := elps_fast h0 h1 hM0 hMp
    have hstep : |(newtonElps M e)^[13 + 1] (elpsStart M e) - (newtonElps M e)^[13] (elpsStart M e)| ≤ defaultTol := by
      have a := hj 13 le_rfl
      have b := hm 13 le_rfl
      rw [htol, abs_sub_comm, abs_of_nonneg (by linarith)]
      have c := (hj 14 (by norm_num)).1
      have d := a.2
      rw [show (1e-6 : ℝ) = 1 / 1000000 by norm_num] at d
      linarith
    have := elps_returns_accurate h0 (by linarith) (tol := defaultTol) (by rw [htol]; norm_num)
      (by rw [htol]; linarith) M (by omega : 13 < max_iter) hstep
    rwa [show e * (1 / 1000000) ^ 2 / 2 = e * (defaultTol : ℝ) ^ 2 / 2 by rw [htol]]
  have key2 : ∀ M : ℝ, |M| ≤ Real.pi → ∃ E, solve_kepler_elps M e defaultTol max_iter = some E ∧
      |kepler_equ_elps E e M| ≤ e * (1 / 1000000) ^ 2 / 2 := by
    intro M hM
    rcases le_total 0 M with h | h
    · exact key M h ((le_abs_self M).trans hM)
    · obtain ⟨E, hE, hres⟩ := key (-M) (by linarith) ((neg_le_abs M).trans hM)
      have hodd := C17_elps_odd (-M) e defaultTol max_iter
      rw [neg_neg, hE] at hodd
      refine ⟨-E, hodd, ?_⟩
      have : kepler_equ_elps (-E) e M = -kepler_equ_elps E e (-M) := by
        rw [kep_elps_eq, kep_elps_eq, Real.sin_neg]; ring
      rwa [this, abs_neg]
  obtain ⟨k, hk⟩ : ∃ k : ℤ, |M - 2 * Real.pi * k| ≤ Real.pi := by
    refine ⟨round (M / (2 * Real.pi)), ?_⟩
    have h := abs_sub_round (M / (2 * Real.pi))
    have hp := Real.pi_pos
    have he : M - 2 * Real.pi * round (M / (2 * Real.pi))
        = 2 * Real.pi * (M / (2 * Real.pi) - round (M / (2 * Real.pi))) := by field_simp
    rw [he, abs_mul, abs_of_pos (by linarith)]
    nlinarith
  obtain ⟨E, hE, hres⟩ := key2 _ hk
  have hper := C17_elps_periodic (M - 2 * Real.pi * k) e defaultTol max_iter k
  rw [sub_add_cancel, hE] at hper
  refine ⟨_, hper, ?_⟩
  have : kepler_equ_elps (E + 2 * Real.pi * k) e M = kepler_equ_elps E e (M - 2 * Real.pi * k) := by
    rw [kep_elps_eq, kep_elps_eq, mul_comm (2 * Real.pi), Real.sin_add_int_mul_two_pi]; ring
  rwa [this]

/-- A comet: `e = 0.967` (1P/Halley). -/
example (M : ℝ) : ∃ E, solve_kepler_elps M (967 / 1000) defaultTol 20 = some E ∧
    |kepler_equ_elps E (967 / 1000) M| ≤ 967 / 1000 * (1 / 1000000) ^ 2 / 2 :=
  C18_elps_default_high_partial (by norm_num) (by norm_num) M 20 (by norm_num)

end Adx
