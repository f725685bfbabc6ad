import Verif.Props.C18f

/-! # C18, continued: ellipses up to eccentricity 0.9965

Above `0.9943` the first step may jump beyond apoapsis.  Up to `0.9965` it stays below `4.15`, and the second step
comes back between the root and `π`, from where the iterates descend. -/

namespace Adx
open Set

theorem poly9965a {x : ℝ} (hx0 : 0.205 ≤ x) (hx1 : x ≤ 0.3) :
    1993 / 2000 * (x + (1 - x ^ 2 / 2 + x ^ 4 / 24) * (3.14 - x)) ≤ 3.14 - x + 0.6589 * x := by
  have hp : 0 ≤ x := by linarith
  have h : 0 ≤ 0.01099 - 0.3411 * x + 1.5645 * x ^ 2 - 0.49825 * x ^ 3 - 0.1304 * x ^ 4 := by
    nlinarith [mul_nonneg (sub_nonneg.2 hx0) (sub_nonneg.2 hx1), mul_nonneg (mul_nonneg (sub_nonneg.2 hx0) (sub_nonneg.2 hx1)) hp,
      mul_nonneg (mul_nonneg (sub_nonneg.2 hx0) (sub_nonneg.2 hx1)) (sq_nonneg x)]
  nlinarith [pow_nonneg hp 5, pow_nonneg hp 4, pow_nonneg hp 3]

theorem poly9965b {x : ℝ} (hx0 : 0.28 ≤ x) (hx1 : x ≤ 0.75) :
    1993 / 2000 * (x + (1 - x ^ 2 / 2 + x ^ 4 / 24) * (3.14 - x)) ≤ 3.14 - x + 0.64 * x := by
  have hp : 0 ≤ x := by linarith
  have h : 0 ≤ 0.01099 - 0.36 * x + 1.5645 * x ^ 2 - 0.49825 * x ^ 3 - 0.1304 * x ^ 4 := by
    nlinarith [mul_nonneg (sub_nonneg.2 hx0) (sub_nonneg.2 hx1), mul_nonneg (mul_nonneg (sub_nonneg.2 hx0) (sub_nonneg.2 hx1)) hp,
      mul_nonneg (mul_nonneg (sub_nonneg.2 hx0) (sub_nonneg.2 hx1)) (sq_nonneg x)]
  nlinarith [pow_nonneg hp 5, pow_nonneg hp 4, pow_nonneg hp 3]

theorem poly9965c {x : ℝ} (hx0 : 0.7 ≤ x) (hx1 : x ≤ 1.575) :
    1993 / 2000 * (x + (1 - x ^ 2 / 2 + x ^ 4 / 24) * (3.14 - x)) ≤ 3.14 - x + x / 2 := by
  have hp : 0 ≤ x := by linarith
  have h : 0 ≤ 0.01099 - 0.5 * x + 1.5645 * x ^ 2 - 0.49825 * x ^ 3 - 0.1304 * x ^ 4 := by
    nlinarith [mul_nonneg (sub_nonneg.2 hx0) (sub_nonneg.2 hx1), mul_nonneg (mul_nonneg (sub_nonneg.2 hx0) (sub_nonneg.2 hx1)) hp,
      mul_nonneg (mul_nonneg (sub_nonneg.2 hx0) (sub_nonneg.2 hx1)) (sq_nonneg x)]
  nlinarith [pow_nonneg hp 5, pow_nonneg hp 4, pow_nonneg hp 3]

theorem poly9965d {x : ℝ} (hx0 : 0 ≤ x) (hx1 : x ≤ 0.21) :
    1993 / 2000 * (x + (1 - x ^ 2 / 2 + x ^ 4 / 24) * (4.15 - x)) ≤ 4.15 - x + 0.6594 * x := by
  have h : 0 ≤ 0.014525 - 0.3406 * x + 2.0677 * x ^ 2 - 0.49825 * x ^ 3 - 0.1724 * x ^ 4 := by
    have h4 : x ^ 4 ≤ 0.21 * x ^ 3 := by
      have := mul_le_mul_of_nonneg_left hx1 (pow_nonneg hx0 3)
      nlinarith
    have h5 : 0 ≤ 0.014525 - 0.3406 * x + 2.0677 * x ^ 2 - 0.5345 * x ^ 3 := by
      nlinarith [sq_nonneg (x - 0.0825), mul_nonneg hx0 (sq_nonneg (x - 0.0825)),
        mul_nonneg (sub_nonneg.2 hx1) (sq_nonneg (x - 0.0825))]
    nlinarith [pow_nonneg hx0 3]
  nlinarith [pow_nonneg hx0 5, pow_nonneg hx0 4, pow_nonneg hx0 3]

section
variable {e M : ℝ} (h0 : 0 ≤ e) (h1 : e ≤ 1993 / 2000) (hM0 : 0 ≤ M) (hMp : M ≤ Real.pi)

include h0 h1 in
/-- One step from between the root and `π`. -/
theorem elps_descent10 {Es x : ℝ} (hroot : kepler_equ_elps Es e M = 0) (hE0 : 0 ≤ Es) (hEx : Es ≤ x) (hx : x ≤ Real.pi) :
    Es ≤ newtonElps M e x ∧ newtonElps M e x ≤ x ∧ newtonElps M e x - Es ≤ 2 / 3 * (x - Es) ∧
      newtonElps M e x - Es ≤ 12 / 2 * (x - Es) ^ 2 := by
  have hpos : 0 < dE x e := by linarith [dE_ge h0 x]
  have hlow : Es ≤ newtonElps M e x := by
    refine newton_ge_root (fun s => hasDerivAt_elps s e M) hroot hpos
      (fun s hs => dE_mono h0 (hE0.trans hs.1) hs.2 hx) (fun s hs => ?_)
    have : s = x := le_antisymm (hs.2.trans hEx) hs.1
    rw [this]
  have hlin : newtonElps M e x - Es ≤ 2 / 3 * (x - Es) := by
    have := newton_lin (f := fun E => kepler_equ_elps E e M) (f' := fun E => dE E e) (a := Es) (x := x) (κ := 1 / 3) hpos ?_
    · rw [newtonElps_eq]; linarith
    · rcases (hE0.trans hEx).eq_or_lt with hz | hxpos
      · have : Es = x := by linarith
        rw [← this, hroot]; simp
      have hch := sin_chord hE0 hEx hx
      have hcu := cusa (hE0.trans hEx) hx
      rw [kep_elps_eq] at hroot
      simp only [kep_elps_eq, dE_eq]
      have h3 : x * (e * (Real.sin x - Real.sin Es)) ≤ x * (e * ((x - Es) * (2 + Real.cos x) / 3)) := by
        have h4 : x * (Real.sin x - Real.sin Es) ≤ x * ((x - Es) * (2 + Real.cos x) / 3) := by
          have := mul_le_mul_of_nonneg_left hcu (sub_nonneg.2 hEx)
          nlinarith
        have := mul_le_mul_of_nonneg_left h4 h0
        linarith
      have h5 := le_of_mul_le_mul_left h3 hxpos
      have h6 : 0 ≤ (1 - e) * (x - Es) := mul_nonneg (by linarith) (by linarith)
      nlinarith
  refine ⟨hlow, by linarith, hlin, ?_⟩
  have hq := newton_quad (f := fun E => kepler_equ_elps E e M) (f' := fun E => dE E e) (f'' := fun s => e * Real.sin s)
    (C := 12) (fun s => hasDerivAt_elps s e M) hasDerivAt_dE hEx hroot hpos (fun s hs => ?_)
  · rw [newtonElps_eq]; exact hq
  · have h2 := dE_mono h0 (hE0.trans hs.1) hs.2 hx
    have h3 : e * Real.sin s ≤ 12 * dE s e := by
      rw [dE_eq]
      have hsc := Real.sin_sq_add_cos_sq s
      have h4 : (e * (Real.sin s + 12 * Real.cos s)) ^ 2 ≤ 12 ^ 2 := by
        have h5 : (Real.sin s + 12 * Real.cos s) ^ 2 ≤ 145 := by nlinarith [sq_nonneg (12 * Real.sin s - Real.cos s)]
        have h6 : e ^ 2 ≤ (1993 / 2000) ^ 2 := pow_le_pow_left₀ h0 h1 2
        rw [mul_pow]
        have := mul_le_mul h6 h5 (sq_nonneg _) (by norm_num)
        refine this.trans (by norm_num)
      have := abs_le_of_sq_le_sq' h4 (by norm_num)
      linarith [this.2]
    linarith

include h0 h1 in
/-- The tangent at a point below `1.575` is nonnegative at `P` when a polynomial inequality holds. -/
theorem elps_tangent_core {x P Q : ℝ} (hx0 : 0 ≤ x) (hx15 : x ≤ 1.575) (hQ : 1.6 ≤ Q) (hQP : Q ≤ P)
    (h : 1993 / 2000 * (x + (1 - x ^ 2 / 2 + x ^ 4 / 24) * (Q - x)) ≤ Q - x + (x - M)) :
    0 ≤ kepler_equ_elps x e M + dE x e * (P - x) := by
  rw [kep_elps_eq, dE_eq]
  have hcq := cos_le_quartic hx0 (by linarith)
  have hsle : Real.sin x ≤ x := Real.sin_le hx0
  have hx3 : x ^ 2 ≤ 3 := by nlinarith
  have hq0 : 0 ≤ 1 - x ^ 2 / 2 + x ^ 4 / 24 := by nlinarith [sq_nonneg (x ^ 2 - 6), sq_nonneg x]
  have hlow : (1 - e * (1 - x ^ 2 / 2 + x ^ 4 / 24)) * (Q - x) ≤ (1 - e * Real.cos x) * (P - x) := by
    have ha : 1 - e * (1 - x ^ 2 / 2 + x ^ 4 / 24) ≤ 1 - e * Real.cos x := by
      have := mul_le_mul_of_nonneg_left hcq h0
      linarith
    have hb : 0 ≤ 1 - e * (1 - x ^ 2 / 2 + x ^ 4 / 24) := by
      have : 1 - x ^ 2 / 2 + x ^ 4 / 24 ≤ 1 := by nlinarith [sq_nonneg x]
      nlinarith
    exact mul_le_mul ha (by linarith) (by linarith) (hb.trans ha)
  have hmono : e * (x + (1 - x ^ 2 / 2 + x ^ 4 / 24) * (Q - x))
      ≤ 1993 / 2000 * (x + (1 - x ^ 2 / 2 + x ^ 4 / 24) * (Q - x)) := by
    refine mul_le_mul_of_nonneg_right h1 ?_
    have : 0 ≤ (1 - x ^ 2 / 2 + x ^ 4 / 24) * (Q - x) := mul_nonneg hq0 (by linarith)
    linarith
  have hes : e * Real.sin x ≤ e * x := mul_le_mul_of_nonneg_left hsle h0
  nlinarith

include h0 h1 hM0 hMp in
/-- From a mean anomaly above `0.07` the tangent at the starting value is nonnegative at `π`. -/
theorem elps_first_tangent10 (he : 49 / 50 ≤ e) (hM7 : 0.07 ≤ M) : let x := elpsStart M e
    0 ≤ kepler_equ_elps x e M + dE x e * (Real.pi - x) := by
  intro x
  obtain ⟨hx1, hx2⟩ := elpsStart_range h0 hM0 hMp (by linarith)
  have hp := Real.pi_gt_d2
  have hp' := Real.pi_lt_d2
  have hx0 : 0 ≤ x := hM0.trans hx1
  have hsx : 0 ≤ Real.sin x := Real.sin_nonneg_of_nonneg_of_le_pi hx0 hx2
  have hMx : M ≤ x := hx1
  rcases le_total (Real.pi / 2) x with hbig | hsmall
  · rw [kep_elps_eq, dE_eq]
    have hc : Real.cos x ≤ 0 := Real.cos_nonpos_of_pi_div_two_le_of_le hbig (by linarith)
    have hs : Real.sin x ≤ Real.pi - x := by rw [← Real.sin_pi_sub]; exact Real.sin_le (by linarith)
    have h3 : 0 ≤ e * -Real.cos x * (Real.pi - x) := mul_nonneg (mul_nonneg h0 (by linarith)) (by linarith)
    have h4 : e * Real.sin x ≤ Real.sin x := by nlinarith
    linarith
  · have hx15 : x ≤ 1.575 := by linarith
    refine elps_tangent_core (Q := 3.14) h0 h1 hx0 hx15 (by norm_num) (by linarith) ?_
    rcases le_total x 0.29 with hx3 | hx3
    · have hM1 : M ≤ 0.1 := by
        by_contra hlt
        push Not at hlt
        have h6 : (0.29 : ℝ) < x := by
          rcases le_total M 0.145 with h7 | h7
          · have := elpsStart_lower (k := 2.9) he hM0 h7 (by norm_num) (by norm_num)
            have : 2.9 * M ≤ x := this
            linarith
          · have hM3 : M ≤ 0.29 := by linarith
            have := elpsStart_lower (k := 2.8) he hM0 hM3 (by norm_num) (by norm_num)
            have : 2.8 * M ≤ x := this
            linarith
        linarith
      have := elpsStart_lower (k := 2.932) he hM0 hM1 (by norm_num) (by norm_num)
      have : 2.932 * M ≤ x := this
      have := poly9965a (show 0.205 ≤ x by linarith) (by linarith)
      linarith
    rcases le_total x 0.72 with hx4 | hx4
    · have hM1 : M ≤ 0.3 := by
        by_contra hlt
        push Not at hlt
        rcases le_total M 0.72 with h7 | h7
        · have := elpsStart_lower (k := 2.4) he hM0 h7 (by norm_num) (by norm_num)
          have : 2.4 * M ≤ x := this
          linarith
        · have : M = x := by linarith
          have h8 := elpsStart_lower (k := 2) he hM0 (show M ≤ 0.72 by linarith) (by norm_num) (by norm_num)
          have : 2 * M ≤ x := h8
          linarith
      have := elpsStart_lower (k := 2.8) he hM0 hM1 (by norm_num) (by norm_num)
      have : 2.8 * M ≤ x := this
      have := poly9965b (by linarith) (show x ≤ 0.75 by linarith)
      linarith
    · have hM1 : M ≤ 1 := by
        by_contra hlt
        push Not at hlt
        have hsM : 0 ≤ Real.sin M := Real.sin_nonneg_of_nonneg_of_le_pi hM0 hMp
        have hcM : 0 ≤ Real.cos M := Real.cos_nonneg_of_neg_pi_div_two_le_of_le (by linarith) (by linarith)
        have hg : x - M = e * Real.sin M * (1 + e * Real.cos M) := by
          simp only [x, elpsStart, sin_real, Nat.cast_ofNat, Real.sin_two_mul]; ring
        have h6 : Real.sin 1 ≤ Real.sin M :=
          Real.sin_le_sin_of_le_of_le_pi_div_two (by linarith) (by linarith) hlt.le
        have h7 : (5 / 6 : ℝ) ≤ Real.sin 1 := by
          have := Real.sin_gt_sub_cube (x := 1) one_pos
          linarith
        have h8 : e * Real.sin M ≤ e * Real.sin M * (1 + e * Real.cos M) := by
          have := mul_nonneg (mul_nonneg h0 hsM) (mul_nonneg h0 hcM)
          linarith
        nlinarith
      have := elpsStart_lower (k := 2) he hM0 hM1 (by norm_num) (by norm_num)
      have : 2 * M ≤ x := this
      have := poly9965c (by linarith) hx15
      linarith

include h0 h1 hM0 in
/-- From a mean anomaly below `0.07` the tangent at the starting value is nonnegative at `4.15`. -/
theorem elps_first_tangent_far (he : 49 / 50 ≤ e) (hM7 : M ≤ 0.07) : let x := elpsStart M e
    0 ≤ kepler_equ_elps x e M + dE x e * (4.15 - x) := by
  intro x
  have hp := Real.pi_gt_d2
  have hx1 : M ≤ x := (elpsStart_range h0 hM0 (by linarith) (by linarith)).1
  have hx3 : x ≤ 3 * M := by
    have heq : x = M + e * Real.sin M * (1 + e * Real.cos M) := by
      simp only [x, elpsStart, sin_real, Nat.cast_ofNat, Real.sin_two_mul]; ring
    have hs : Real.sin M ≤ M := Real.sin_le hM0
    have hs0 : 0 ≤ Real.sin M := Real.sin_nonneg_of_nonneg_of_le_pi hM0 (by linarith)
    have h2 : e * Real.sin M ≤ M := by nlinarith
    have h3 : 1 + e * Real.cos M ≤ 2 := by nlinarith [Real.cos_le_one M]
    have := mul_le_mul h2 h3 (by nlinarith [Real.neg_one_le_cos M]) hM0
    linarith
  have := elpsStart_lower (k := 2.936) he hM0 hM7 (by norm_num) (by norm_num)
  have h5 : 2.936 * M ≤ x := this
  have := poly9965d (show 0 ≤ x by linarith) (by linarith)
  exact elps_tangent_core (Q := 4.15) h0 h1 (by linarith) (by linarith) (by norm_num) le_rfl (by linarith)

include h0 h1 hM0 in
/-- A step from beyond apoapsis, up to `4.15`, comes back between the root and `π`. -/
theorem elps_return (he : 49 / 50 ≤ e) (hM7 : M ≤ 0.07) {Es x : ℝ} (hroot : kepler_equ_elps Es e M = 0)
    (hx1 : Real.pi ≤ x) (hx2 : x ≤ 4.15) : Es ≤ newtonElps M e x ∧ newtonElps M e x ≤ Real.pi := by
  have hp := Real.pi_gt_d2
  have hp' := Real.pi_lt_d2
  -- the root lies below `3/4`
  have hE : Es ≤ 3 / 4 := by
    by_contra hlt
    push Not at hlt
    have hpos : ∀ s, 0 < dE s e := fun s => by linarith [dE_ge h0 s]
    have hmono : StrictMono (fun E => kepler_equ_elps E e M) :=
      strictMono_of_deriv_pos fun s => by rw [(hasDerivAt_elps s e M).deriv]; exact hpos s
    have h2 := hmono hlt
    simp only [hroot] at h2
    rw [kep_elps_eq] at h2
    have hs : Real.sin (3 / 4) ≤ 0.682 := by
      have hs1 : 3 / 8 - (3 / 8) ^ 3 / 6 ≤ Real.sin (3 / 8) := by
        have := Real.sin_gt_sub_cube (x := 3 / 8) (by norm_num)
        linarith
      have hc := Real.cos_sq' (3 / 8 : ℝ)
      have hsin : Real.sin (3 / 4) = 2 * Real.sin (3 / 8) * Real.cos (3 / 8) := by
        rw [← Real.sin_two_mul]; norm_num
      have hs2 : Real.sin (3 / 8) ≤ 0.3664 := by
        have h7 := Real.sin_bound (x := 3 / 8) (by rw [abs_of_pos] <;> norm_num)
        have := (abs_le.1 h7).2
        rw [abs_of_pos (by norm_num : (0 : ℝ) < 3 / 8)] at this
        norm_num at this ⊢
        linarith
      have hc2 : Real.cos (3 / 8) ≤ 0.9306 := by
        have := cos_le_quartic (x := 3 / 8) (by norm_num) (by norm_num)
        norm_num at this ⊢
        linarith
      have hc0 : 0 ≤ Real.cos (3 / 8) := Real.cos_nonneg_of_neg_pi_div_two_le_of_le (by linarith) (by linarith)
      rw [hsin]
      have := mul_le_mul hs2 hc2 hc0 (by norm_num)
      norm_num at this ⊢
      linarith
    have hs0 : 0 ≤ Real.sin (3 / 4) := Real.sin_nonneg_of_nonneg_of_le_pi (by norm_num) (by linarith)
    have := mul_le_mul h1 hs hs0 (by norm_num)
    norm_num at this hM7
    linarith
  obtain ⟨y, rfl⟩ : ∃ y, x = y + Real.pi := ⟨x - Real.pi, by ring⟩
  have hy0 : 0 ≤ y := by linarith
  have hy1 : y ≤ 1.01 := by linarith
  have hsy0 : 0 ≤ Real.sin y := Real.sin_nonneg_of_nonneg_of_le_pi hy0 (by linarith)
  have hsy1 : Real.sin y ≤ 0.8661 := by
    have h3 : Real.sin y ≤ Real.sin (Real.pi / 3) :=
      Real.sin_le_sin_of_le_of_le_pi_div_two (by linarith) (by linarith) (by linarith)
    rw [Real.sin_pi_div_three] at h3
    have : √3 ≤ 1.7322 := Real.sqrt_le_iff.2 ⟨by norm_num, by norm_num⟩
    linarith
  have hcy := Real.one_sub_sq_div_two_le_cos (x := y)
  have hcy0 : 0 ≤ Real.cos y := Real.cos_nonneg_of_neg_pi_div_two_le_of_le (by linarith) (by linarith)
  have hd : dE (y + Real.pi) e = 1 + e * Real.cos y := by rw [dE_eq, Real.cos_add_pi]; ring
  have hf : kepler_equ_elps (y + Real.pi) e M = y + Real.pi + e * Real.sin y - M := by
    rw [kep_elps_eq, Real.sin_add_pi]; ring
  have hpos : 0 < dE (y + Real.pi) e := by rw [hd]; nlinarith
  rw [newtonElps_eq, newton]
  have hprod : 1.63 ≤ (2.39 + y) * (1 - y ^ 2 / 2) := by
    nlinarith [mul_nonneg hy0 (sub_nonneg.2 hy1), mul_nonneg (mul_nonneg hy0 (sub_nonneg.2 hy1)) hy0]
  have hprod2 : 1.63 ≤ (2.39 + y) * Real.cos y :=
    hprod.trans (mul_le_mul_of_nonneg_left hcy (by linarith))
  have hprod3 : (2.39 + y) * Real.cos y ≤ (y + Real.pi - 3 / 4) * Real.cos y :=
    mul_le_mul_of_nonneg_right (by linarith) hcy0
  constructor
  · refine hE.trans ?_
    have : kepler_equ_elps (y + Real.pi) e M / dE (y + Real.pi) e ≤ y + Real.pi - 3 / 4 := by
      rw [div_le_iff₀ hpos, hf, hd]
      nlinarith
    linarith
  · have : y ≤ kepler_equ_elps (y + Real.pi) e M / dE (y + Real.pi) e := by
      rw [le_div_iff₀ hpos, hf, hd]
      have hc1 := Real.cos_le_one y
      have : y * (e * Real.cos y) ≤ y := by
        have : e * Real.cos y ≤ 1 := by nlinarith
        nlinarith
      nlinarith
    linarith

include h0 h1 hM0 hMp in
/-- After one step or after two the iterate lies between the root and `π`. -/
theorem elps_first_steps10 (he : 49 / 50 ≤ e) {Es : ℝ} (hroot : kepler_equ_elps Es e M = 0) (hE0 : 0 ≤ Es)
    (hEp : Es ≤ Real.pi) : Es ≤ (newtonElps M e)^[2] (elpsStart M e) ∧ (newtonElps M e)^[2] (elpsStart M e) ≤ Real.pi := by
  obtain ⟨hx1, hx2⟩ := elpsStart_range h0 hM0 hMp (by linarith)
  have hpos : 0 < dE (elpsStart M e) e := by linarith [dE_ge h0 (elpsStart M e)]
  have hl : Es ≤ newtonElps M e (elpsStart M e) := newton_ge_root (fun s => hasDerivAt_elps s e M) hroot hpos
      (fun s hs => dE_mono h0 (hE0.trans hs.1) hs.2 hx2)
      (fun s hs => dE_mono h0 (hM0.trans hx1) hs.1 (hs.2.trans hEp))
  rw [Function.iterate_succ_apply', Function.iterate_one]
  rcases le_total (newtonElps M e (elpsStart M e)) Real.pi with hle | hge
  · have := elps_descent10 h0 h1 hroot hE0 hl hle
    exact ⟨this.1, this.2.1.trans hle⟩
  rcases le_total M 0.07 with hM7 | hM7
  · refine elps_return h0 h1 hM0 he hM7 hroot hge ?_
    have h := elps_first_tangent_far h0 h1 hM0 he hM7
    simp only at h
    have : -(4.15 - elpsStart M e) ≤ kepler_equ_elps (elpsStart M e) e M / dE (elpsStart M e) e := by
      rw [le_div_iff₀ hpos]; linarith
    rw [newtonElps_eq, newton]
    linarith
  · have hle : newtonElps M e (elpsStart M e) ≤ Real.pi := by
      have h := elps_first_tangent10 h0 h1 hM0 hMp he hM7
      simp only at h
      have : -(Real.pi - elpsStart M e) ≤ kepler_equ_elps (elpsStart M e) e M / dE (elpsStart M e) e := by
        rw [le_div_iff₀ hpos]; linarith
      rw [newtonElps_eq, newton]
      linarith
    have := elps_descent10 h0 h1 hroot hE0 hl hle
    exact ⟨this.1, this.2.1.trans hle⟩

include h0 h1 hM0 hMp in
/-- From the sixteenth step on the iterates decrease and lie within `10⁻⁶` right of the root. -/
theorem elps_fast10 (he : 49 / 50 ≤ e) : ∃ Es, kepler_equ_elps Es e M = 0 ∧
    (∀ j, 16 ≤ j → Es ≤ (newtonElps M e)^[j] (elpsStart M e) ∧ (newtonElps M e)^[j] (elpsStart M e) - Es ≤ 1e-6) ∧
    (∀ j, 16 ≤ j → (newtonElps M e)^[j + 1] (elpsStart M e) ≤ (newtonElps M e)^[j] (elpsStart M e)) := by
  obtain ⟨Es, hroot, hE0, hEp⟩ : ∃ Es, kepler_equ_elps Es e M = 0 ∧ 0 ≤ Es ∧ Es ≤ Real.pi := by
    have hc : ContinuousOn (fun E => kepler_equ_elps E e M) (Icc 0 Real.pi) :=
      (continuous_iff_continuousAt.2 fun s => (hasDerivAt_elps s e M).continuousAt).continuousOn
    have := intermediate_value_Icc Real.pi_pos.le hc
    obtain ⟨Es, hEs, hz⟩ := this (show (0 : ℝ) ∈ Icc (kepler_equ_elps 0 e M) (kepler_equ_elps Real.pi e M) by
      rw [kep_elps_eq, kep_elps_eq, Real.sin_zero, Real.sin_pi]
      constructor <;> linarith)
    exact ⟨Es, hz, hEs.1, hEs.2⟩
  have hf := elps_first_steps10 h0 h1 hM0 hMp he hroot hE0 hEp
  set u : ℕ → ℝ := fun k => (newtonElps M e)^[k + 2] (elpsStart M e) with hu
  have hstep : ∀ k, u (k + 1) = newtonElps M e (u k) := fun k => by
    simp only [hu, Function.iterate_succ_apply' _ (k + 2)]
  have hin : ∀ k, Es ≤ u k ∧ u k ≤ Real.pi := by
    intro k
    induction k with
    | zero => exact hf
    | succ k ih =>
      rw [hstep]
      have := elps_descent10 h0 h1 hroot hE0 ih.1 ih.2
      exact ⟨this.1, this.2.1.trans ih.2⟩
  refine ⟨Es, hroot, fun j hj => ?_, fun j hj => ?_⟩
  swap
  · have := (elps_descent10 h0 h1 hroot hE0 (hin (j - 2)).1 (hin (j - 2)).2).2.1
    rw [← hstep] at this
    simpa only [hu, show j - 2 + 2 = j by omega, show j - 2 + 1 + 2 = j + 1 by omega] using this
  have hd := decay (δ := fun k => u k - Es) (ρ := 2 / 3) (c := 12 / 2) (D := 3.15) (n := 9) (by norm_num) (by norm_num)
    (fun k => sub_nonneg.2 (hin k).1) (by have := Real.pi_lt_d2; linarith [(hin 0).2])
    (fun k => by rw [hstep]; exact (elps_descent10 h0 h1 hroot hE0 (hin k).1 (hin k).2).2.2.1)
    (fun k => by rw [hstep]; exact (elps_descent10 h0 h1 hroot hE0 (hin k).1 (hin k).2).2.2.2)
    (by norm_num) (j - 11)
  have hj' : 9 + (j - 11) + 2 = j := by omega
  simp only [hu, hj'] at hd
  have hge := (hin (j - 2)).1
  simp only [hu, show j - 2 + 2 = j by omega] at hge
  refine ⟨hge, hd.trans ?_⟩
  have h2 : (1 / 2 : ℝ) ^ 2 ^ (j - 11) ≤ (1 / 2) ^ 2 ^ 5 :=
    pow_le_pow_of_le_one (by norm_num) (by norm_num) (Nat.pow_le_pow_right (by norm_num) (by omega))
  rw [div_le_iff₀ (by norm_num)]
  refine h2.trans (by norm_num)

end

/-- C18, the part that holds: for every mean anomaly and every eccentricity up to `0.9965` the default call (and
every call with at least 17 iterations) returns a value whose residual is at most `e · 10⁻¹²/2`.
Missing from the full claim: eccentricities above `0.9965` (false from `0.9973` on by `C18_elps_cycle_refuted`). -/
theorem C18_elps_default_9965_partial {e : ℝ} (h0 : 0 ≤ e) (h1 : e ≤ 1993 / 2000) (M : ℝ) (max_iter : ℕ := 20)
    (hn : 17 ≤ max_iter) :
    ∃ E, solve_kepler_elps M e defaultTol max_iter = some E ∧
      |kepler_equ_elps E e M| ≤ e * (1 / 1000000) ^ 2 / 2 := by
  rcases le_total e (1987 / 2000) with hle | hge
  · exact C18_elps_default_9935_partial h0 hle M max_iter (by omega)
  have htol : (defaultTol : ℝ) = 1 / 1000000 := by norm_num [defaultTol]
  have key : ∀ M : ℝ, 0 ≤ M → M ≤ Real.pi → ∃ E, solve_kepler_elps M e defaultTol max_iter = some E ∧
      |kepler_equ_elps E e M| ≤ e * (1 / 1000000) ^ 2 / 2 := by
    intro M hM0 hMp
    obtain ⟨Es, -, hj, hm⟩ := elps_fast10 h0 h1 hM0 hMp (by linarith)
    have hstep : |(newtonElps M e)^[16 + 1] (elpsStart M e) - (newtonElps M e)^[16] (elpsStart M e)| ≤ defaultTol := by
      have a := hj 16 le_rfl
      have b := hm 16 le_rfl
      rw [htol, abs_sub_comm, abs_of_nonneg (by linarith)]
      have c := (hj 17 (by norm_num)).1
      have d := a.2
      rw [show (1e-6 : ℝ) = 1 / 1000000 by norm_num] at d
      linarith
    have := elps_returns_accurate h0 (by linarith) (tol := defaultTol) (by rw [htol]; norm_num)
      (by rw [htol]; linarith) M (by omega : 16 < max_iter) hstep
    rwa [show e * (1 / 1000000) ^ 2 / 2 = e * (defaultTol : ℝ) ^ 2 / 2 by rw [htol]]
  have key2 : ∀ M : ℝ, |M| ≤ Real.pi → ∃ E, solve_kepler_elps M e defaultTol max_iter = some E ∧
      |kepler_equ_elps E e M| ≤ e * (1 / 1000000) ^ 2 / 2 := by
    intro M hM
    rcases le_total 0 M with h | h
    · exact key M h ((le_abs_self M).trans hM)
    · obtain ⟨E, hE, hres⟩ := key (-M) (by linarith) ((neg_le_abs M).trans hM)
      have hodd := C17_elps_odd (-M) e defaultTol max_iter
      rw [neg_neg, hE] at hodd
      refine ⟨-E, hodd, ?_⟩
      have : kepler_equ_elps (-E) e M = -kepler_equ_elps E e (-M) := by
        rw [kep_elps_eq, kep_elps_eq, Real.sin_neg]; ring
      rwa [this, abs_neg]
  obtain ⟨k, hk⟩ : ∃ k : ℤ, |M - 2 * Real.pi * k| ≤ Real.pi := by
    refine ⟨round (M / (2 * Real.pi)), ?_⟩
    have h := abs_sub_round (M / (2 * Real.pi))
    have hp := Real.pi_pos
    have he : M - 2 * Real.pi * round (M / (2 * Real.pi))
        = 2 * Real.pi * (M / (2 * Real.pi) - round (M / (2 * Real.pi))) := by field_simp
    rw [he, abs_mul, abs_of_pos (by linarith)]
    nlinarith
  obtain ⟨E, hE, hres⟩ := key2 _ hk
  have hper := C17_elps_periodic (M - 2 * Real.pi * k) e defaultTol max_iter k
  rw [sub_add_cancel, hE] at hper
  refine ⟨_, hper, ?_⟩
  have : kepler_equ_elps (E + 2 * Real.pi * k) e M = kepler_equ_elps E e (M - 2 * Real.pi * k) := by
    rw [kep_elps_eq, kep_elps_eq, mul_comm (2 * Real.pi), Real.sin_add_int_mul_two_pi]; ring
  rwa [this]

/-- `e = 0.996`: for small mean anomalies the first step overshoots apoapsis. -/
example (M : ℝ) : ∃ E, solve_kepler_elps M (249 / 250) defaultTol 20 = some E ∧
    |kepler_equ_elps E (249 / 250) M| ≤ 249 / 250 * (1 / 1000000) ^ 2 / 2 :=
  C18_elps_default_9965_partial (by norm_num) (by norm_num) M 20 (by norm_num)

end Adx
