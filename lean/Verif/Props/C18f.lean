import Verif.Props.C18c

/-! # C18, continued: ellipses up to eccentricity 0.9935

The argument of `C18c` with the starting value bounded more closely: for small mean anomalies it is nearly `3 M`, so
the tangent there still reaches `π` above the axis. -/

namespace Adx
open Set

theorem poly9935a {x : ℝ} (hx0 : 0 ≤ x) (hx1 : x ≤ 0.3) :
    1987 / 2000 * (x + (1 - x ^ 2 / 2 + x ^ 4 / 24) * (3.14 - x)) ≤ 3.14 - x + 0.6589 * x := by
  have h : 0 ≤ 0.02041 - 0.3411 * x + 1.559795 * x ^ 2 - 0.49675 * x ^ 3 - 0.12999 * x ^ 4 + 0.0413 * x ^ 5 := by
    nlinarith [sq_nonneg (x - 0.116), mul_nonneg hx0 (sq_nonneg (x - 0.116)),
      mul_nonneg (mul_nonneg hx0 hx0) (sub_nonneg.2 hx1), mul_nonneg (pow_nonneg hx0 3) (sub_nonneg.2 hx1),
      mul_nonneg hx0 (sub_nonneg.2 hx1)]
  nlinarith [pow_nonneg hx0 5, pow_nonneg hx0 4, pow_nonneg hx0 3]

theorem poly9935b {x : ℝ} (hx0 : 0.28 ≤ x) (hx1 : x ≤ 0.75) :
    1987 / 2000 * (x + (1 - x ^ 2 / 2 + x ^ 4 / 24) * (3.14 - x)) ≤ 3.14 - x + 0.64 * x := by
  have h : 0 ≤ 0.02041 - 0.36 * x + 1.559795 * x ^ 2 - 0.49675 * x ^ 3 - 0.12999 * x ^ 4 := by
    nlinarith [mul_nonneg (sub_nonneg.2 hx0) (sub_nonneg.2 hx1), mul_nonneg (mul_nonneg (sub_nonneg.2 hx0) (sub_nonneg.2 hx1)) (by linarith : 0 ≤ x),
      mul_nonneg (mul_nonneg (sub_nonneg.2 hx0) (sub_nonneg.2 hx1)) (sq_nonneg x)]
  nlinarith [pow_nonneg (by linarith : 0 ≤ x) 5, pow_nonneg (by linarith : 0 ≤ x) 4, pow_nonneg (by linarith : 0 ≤ x) 3]

theorem poly9935c {x : ℝ} (hx0 : 0.7 ≤ x) (hx1 : x ≤ 1.575) :
    1987 / 2000 * (x + (1 - x ^ 2 / 2 + x ^ 4 / 24) * (3.14 - x)) ≤ 3.14 - x + x / 2 := by
  have h : 0 ≤ 0.02041 - 0.5 * x + 1.559795 * x ^ 2 - 0.49675 * x ^ 3 - 0.12999 * x ^ 4 := by
    nlinarith [mul_nonneg (sub_nonneg.2 hx0) (sub_nonneg.2 hx1), mul_nonneg (mul_nonneg (sub_nonneg.2 hx0) (sub_nonneg.2 hx1)) (by linarith : 0 ≤ x),
      mul_nonneg (mul_nonneg (sub_nonneg.2 hx0) (sub_nonneg.2 hx1)) (sq_nonneg x)]
  nlinarith [pow_nonneg (by linarith : 0 ≤ x) 5, pow_nonneg (by linarith : 0 ≤ x) 4, pow_nonneg (by linarith : 0 ≤ x) 3]

section
variable {e M : ℝ} (h0 : 0 ≤ e) (h1 : e ≤ 1987 / 2000) (hM0 : 0 ≤ M) (hMp : M ≤ Real.pi)

include h0 h1 in
/-- One step from between the root and `π`. -/
theorem elps_descent9 {Es x : ℝ} (hroot : kepler_equ_elps Es e M = 0) (hE0 : 0 ≤ Es) (hEx : Es ≤ x) (hx : x ≤ Real.pi) :
    Es ≤ newtonElps M e x ∧ newtonElps M e x ≤ x ∧ newtonElps M e x - Es ≤ 2 / 3 * (x - Es) ∧
      newtonElps M e x - Es ≤ 9 / 2 * (x - Es) ^ 2 := by
  have hpos : 0 < dE x e := by linarith [dE_ge h0 x]
  have hlow : Es ≤ newtonElps M e x := by
    refine newton_ge_root (fun s => hasDerivAt_elps s e M) hroot hpos
      (fun s hs => dE_mono h0 (hE0.trans hs.1) hs.2 hx) (fun s hs => ?_)
    have : s = x := le_antisymm (hs.2.trans hEx) hs.1
    rw [this]
  have hlin : newtonElps M e x - Es ≤ 2 / 3 * (x - Es) := by
    have := newton_lin (f := fun E => kepler_equ_elps E e M) (f' := fun E => dE E e) (a := Es) (x := x) (κ := 1 / 3) hpos ?_
    · rw [newtonElps_eq]; linarith
    · rcases (hE0.trans hEx).eq_or_lt with hz | hxpos
      · have : Es = x := by linarith
        rw [← this, hroot]; simp
      have hch := sin_chord hE0 hEx hx
      have hcu := cusa (hE0.trans hEx) hx
      rw [kep_elps_eq] at hroot
      simp only [kep_elps_eq, dE_eq]
      -- x(sin x − sin Es) ≤ (x − Es) sin x ≤ (x − Es) x (2 + cos x)/3
      have h3 : x * (e * (Real.sin x - Real.sin Es)) ≤ x * (e * ((x - Es) * (2 + Real.cos x) / 3)) := by
        have h4 : x * (Real.sin x - Real.sin Es) ≤ x * ((x - Es) * (2 + Real.cos x) / 3) := by
          have := mul_le_mul_of_nonneg_left hcu (sub_nonneg.2 hEx)
          nlinarith
        have := mul_le_mul_of_nonneg_left h4 h0
        linarith
      have h5 := le_of_mul_le_mul_left h3 hxpos
      have h6 : 0 ≤ (1 - e) * (x - Es) := mul_nonneg (by linarith) (by linarith)
      nlinarith
  refine ⟨hlow, by linarith, hlin, ?_⟩
  have hq := newton_quad (f := fun E => kepler_equ_elps E e M) (f' := fun E => dE E e) (f'' := fun s => e * Real.sin s)
    (C := 9) (fun s => hasDerivAt_elps s e M) hasDerivAt_dE hEx hroot hpos (fun s hs => ?_)
  · rw [newtonElps_eq]; exact hq
  · have h2 := dE_mono h0 (hE0.trans hs.1) hs.2 hx
    have h3 : e * Real.sin s ≤ 9 * dE s e := by
      rw [dE_eq]
      have hsc := Real.sin_sq_add_cos_sq s
      have h4 : (e * (Real.sin s + 9 * Real.cos s)) ^ 2 ≤ 9 ^ 2 := by
        have h5 : (Real.sin s + 9 * Real.cos s) ^ 2 ≤ 82 := by nlinarith [sq_nonneg (9 * Real.sin s - Real.cos s)]
        have h6 : e ^ 2 ≤ (1987 / 2000) ^ 2 := pow_le_pow_left₀ h0 h1 2
        rw [mul_pow]
        nlinarith [sq_nonneg (Real.sin s + 9 * Real.cos s), sq_nonneg e]
      have := abs_le_of_sq_le_sq' h4 (by norm_num)
      linarith [this.2]
    linarith

/-- The starting value of a small mean anomaly is nearly three times as large. -/
theorem elpsStart_lower {B k : ℝ} (he : 49 / 50 ≤ e) (hM0 : 0 ≤ M) (hMB : M ≤ B) (hB1 : B ≤ 1)
    (hk : k ≤ 1 + 49 / 50 * (1 - B ^ 2 / 6) * (1 + 49 / 50 * (1 - B ^ 2 / 2))) : k * M ≤ elpsStart M e := by
  have hB0 : 0 ≤ B := hM0.trans hMB
  have heq : elpsStart M e = M + e * Real.sin M * (1 + e * Real.cos M) := by
    simp only [elpsStart, sin_real, Nat.cast_ofNat, Real.sin_two_mul]; ring
  have hB2 : M ^ 2 ≤ B ^ 2 := pow_le_pow_left₀ hM0 hMB 2
  have hB3 : B ^ 2 ≤ 1 := by nlinarith
  have hs : (1 - B ^ 2 / 6) * M ≤ Real.sin M := by
    rcases hM0.eq_or_lt with h | h
    · rw [← h]; simp
    have := Real.sin_gt_sub_cube h
    nlinarith
  have hc : 1 - B ^ 2 / 2 ≤ Real.cos M := by
    have := Real.one_sub_sq_div_two_le_cos (x := M)
    linarith
  have h2 : 49 / 50 * ((1 - B ^ 2 / 6) * M) ≤ e * Real.sin M :=
    mul_le_mul he hs (mul_nonneg (by linarith) hM0) (by linarith)
  have h3 : 49 / 50 * (1 - B ^ 2 / 2) ≤ e * Real.cos M := mul_le_mul he hc (by linarith) (by linarith)
  have h4 := mul_le_mul h2 (show 1 + 49 / 50 * (1 - B ^ 2 / 2) ≤ 1 + e * Real.cos M by linarith) (by linarith)
    ((mul_nonneg (by norm_num) (mul_nonneg (by linarith) hM0)).trans h2)
  have h5 := mul_le_mul_of_nonneg_right hk hM0
  rw [heq]
  nlinarith

include h0 h1 hM0 hMp in
/-- The tangent at the starting value is still nonnegative at `π`. -/
theorem elps_first_tangent9 : let x := elpsStart M e
    0 ≤ kepler_equ_elps x e M + dE x e * (Real.pi - x) := by
  rcases le_total e (49 / 50) with he | he
  · exact elps_first_tangent h0 he hM0 hMp
  intro x
  obtain ⟨hx1, hx2⟩ := elpsStart_range h0 hM0 hMp (by linarith)
  have hp := Real.pi_gt_d2
  have hp' := Real.pi_lt_d2
  have hx0 : 0 ≤ x := hM0.trans hx1
  rw [kep_elps_eq, dE_eq]
  have hsx : 0 ≤ Real.sin x := Real.sin_nonneg_of_nonneg_of_le_pi hx0 hx2
  have hMx : M ≤ x := hx1
  rcases le_total (Real.pi / 2) x with hbig | hsmall
  · have hc : Real.cos x ≤ 0 := Real.cos_nonpos_of_pi_div_two_le_of_le hbig (by linarith)
    have hs : Real.sin x ≤ Real.pi - x := by rw [← Real.sin_pi_sub]; exact Real.sin_le (by linarith)
    have h3 : 0 ≤ e * -Real.cos x * (Real.pi - x) := mul_nonneg (mul_nonneg h0 (by linarith)) (by linarith)
    have h4 : e * Real.sin x ≤ Real.sin x := by nlinarith
    linarith
  · have hcq := cos_le_quartic hx0 (by linarith)
    have hc0 : 0 ≤ Real.cos x := Real.cos_nonneg_of_neg_pi_div_two_le_of_le (by linarith) hsmall
    have hsle : Real.sin x ≤ x := Real.sin_le hx0
    have hx15 : x ≤ 1.575 := by linarith
    have hw : (1.565 : ℝ) ≤ Real.pi - x := by linarith
    have hlow : (1 - e * (1 - x ^ 2 / 2 + x ^ 4 / 24)) * (3.14 - x) ≤ (1 - e * Real.cos x) * (Real.pi - x) := by
      have ha : 1 - e * (1 - x ^ 2 / 2 + x ^ 4 / 24) ≤ 1 - e * Real.cos x := by
        have := mul_le_mul_of_nonneg_left hcq h0
        linarith
      have hb : 0 ≤ 1 - e * (1 - x ^ 2 / 2 + x ^ 4 / 24) := by
        have : 1 - x ^ 2 / 2 + x ^ 4 / 24 ≤ 1 := by
          have hx3 : x ^ 2 ≤ 3 := by nlinarith
          nlinarith [sq_nonneg x]
        nlinarith
      exact mul_le_mul ha (by linarith) (by linarith) (hb.trans ha)
    have hmono : e * (x + (1 - x ^ 2 / 2 + x ^ 4 / 24) * (3.14 - x))
        ≤ 1987 / 2000 * (x + (1 - x ^ 2 / 2 + x ^ 4 / 24) * (3.14 - x)) := by
      refine mul_le_mul_of_nonneg_right h1 ?_
      have : 0 ≤ (1 - x ^ 2 / 2 + x ^ 4 / 24) * (3.14 - x) :=
        mul_nonneg (by linarith) (by linarith)
      linarith
    have hes : e * Real.sin x ≤ e * x := mul_le_mul_of_nonneg_left hsle h0
    suffices h : 1987 / 2000 * (x + (1 - x ^ 2 / 2 + x ^ 4 / 24) * (3.14 - x)) ≤ 3.14 - x + (x - M) by nlinarith
    rcases le_total x 0.29 with hx3 | hx3
    · have hM1 : M ≤ 0.1 := by
        by_contra hlt
        push Not at hlt
        have h6 : (0.29 : ℝ) < x := by
          rcases le_total M 0.145 with h7 | h7
          · have := elpsStart_lower (k := 2.9) he hM0 h7 (by norm_num) (by norm_num)
            have : 2.9 * M ≤ x := this
            linarith
          · have hM3 : M ≤ 0.29 := by linarith
            have := elpsStart_lower (k := 2.8) he hM0 hM3 (by norm_num) (by norm_num)
            have : 2.8 * M ≤ x := this
            linarith
        linarith
      have := elpsStart_lower (k := 2.932) he hM0 hM1 (by norm_num) (by norm_num)
      have : 2.932 * M ≤ x := this
      have := poly9935a hx0 (by linarith)
      linarith
    rcases le_total x 0.72 with hx4 | hx4
    · have hM1 : M ≤ 0.3 := by
        by_contra hlt
        push Not at hlt
        rcases le_total M 0.72 with h7 | h7
        · have := elpsStart_lower (k := 2.4) he hM0 h7 (by norm_num) (by norm_num)
          have : 2.4 * M ≤ x := this
          linarith
        · have : M = x := by linarith
          have h8 := elpsStart_lower (k := 2) he hM0 (show M ≤ 0.72 by linarith) (by norm_num) (by norm_num)
          have : 2 * M ≤ x := h8
          linarith
      have := elpsStart_lower (k := 2.8) he hM0 hM1 (by norm_num) (by norm_num)
      have : 2.8 * M ≤ x := this
      have := poly9935b (by linarith) (show x ≤ 0.75 by linarith)
      linarith
    · have hM1 : M ≤ 1 := by
        by_contra hlt
        push Not at hlt
        have hsM : 0 ≤ Real.sin M := Real.sin_nonneg_of_nonneg_of_le_pi hM0 hMp
        have hcM : 0 ≤ Real.cos M := Real.cos_nonneg_of_neg_pi_div_two_le_of_le (by linarith) (by linarith)
        have hg : x - M = e * Real.sin M * (1 + e * Real.cos M) := by
          simp only [x, elpsStart, sin_real, Nat.cast_ofNat, Real.sin_two_mul]; ring
        have h6 : Real.sin 1 ≤ Real.sin M :=
          Real.sin_le_sin_of_le_of_le_pi_div_two (by linarith) (by linarith) hlt.le
        have h7 : (5 / 6 : ℝ) ≤ Real.sin 1 := by
          have := Real.sin_gt_sub_cube (x := 1) one_pos
          linarith
        have h8 : e * Real.sin M ≤ e * Real.sin M * (1 + e * Real.cos M) := by
          have := mul_nonneg (mul_nonneg h0 hsM) (mul_nonneg h0 hcM)
          linarith
        nlinarith
      have := elpsStart_lower (k := 2) he hM0 hM1 (by norm_num) (by norm_num)
      have : 2 * M ≤ x := this
      have := poly9935c (by linarith) hx15
      linarith

include h0 h1 hM0 hMp in
/-- The first step ends between the root and `π`. -/
theorem elps_first_step9 {Es : ℝ} (hroot : kepler_equ_elps Es e M = 0) (hE0 : 0 ≤ Es) (hEp : Es ≤ Real.pi) :
    Es ≤ newtonElps M e (elpsStart M e) ∧ newtonElps M e (elpsStart M e) ≤ Real.pi := by
  obtain ⟨hx1, hx2⟩ := elpsStart_range h0 hM0 hMp (by linarith)
  have hpos : 0 < dE (elpsStart M e) e := by linarith [dE_ge h0 (elpsStart M e)]
  constructor
  · exact newton_ge_root (fun s => hasDerivAt_elps s e M) hroot hpos
      (fun s hs => dE_mono h0 (hE0.trans hs.1) hs.2 hx2)
      (fun s hs => dE_mono h0 (hM0.trans hx1) hs.1 (hs.2.trans hEp))
  · have h := elps_first_tangent9 h0 h1 hM0 hMp
    simp only at h
    have : -(Real.pi - elpsStart M e) ≤ kepler_equ_elps (elpsStart M e) e M / dE (elpsStart M e) e := by
      rw [le_div_iff₀ hpos]; linarith
    rw [newtonElps_eq, newton]
    linarith

include h0 h1 hM0 hMp in
/-- From the fifteenth step on the iterates decrease and lie within `10⁻⁶` right of the root. -/
theorem elps_fast9 : ∃ Es, kepler_equ_elps Es e M = 0 ∧
    (∀ j, 15 ≤ j → Es ≤ (newtonElps M e)^[j] (elpsStart M e) ∧ (newtonElps M e)^[j] (elpsStart M e) - Es ≤ 1e-6) ∧
    (∀ j, 15 ≤ j → (newtonElps M e)^[j + 1] (elpsStart M e) ≤ (newtonElps M e)^[j] (elpsStart M e)) := by
  obtain ⟨Es, hroot, hE0, hEp⟩ : ∃ Es, kepler_equ_elps Es e M = 0 ∧ 0 ≤ Es ∧ Es ≤ Real.pi := by
    have hc : ContinuousOn (fun E => kepler_equ_elps E e M) (Icc 0 Real.pi) :=
      (continuous_iff_continuousAt.2 fun s => (hasDerivAt_elps s e M).continuousAt).continuousOn
    have := intermediate_value_Icc Real.pi_pos.le hc
    obtain ⟨Es, hEs, hz⟩ := this (show (0 : ℝ) ∈ Icc (kepler_equ_elps 0 e M) (kepler_equ_elps Real.pi e M) by
      rw [kep_elps_eq, kep_elps_eq, Real.sin_zero, Real.sin_pi]
      constructor <;> linarith)
    exact ⟨Es, hz, hEs.1, hEs.2⟩
  obtain ⟨hf1, hf2⟩ := elps_first_step9 h0 h1 hM0 hMp hroot hE0 hEp
  set u : ℕ → ℝ := fun k => (newtonElps M e)^[k + 1] (elpsStart M e) with hu
  have hstep : ∀ k, u (k + 1) = newtonElps M e (u k) := fun k => by
    simp only [hu, Function.iterate_succ_apply']
  have hin : ∀ k, Es ≤ u k ∧ u k ≤ Real.pi := by
    intro k
    induction k with
    | zero => exact ⟨hf1, hf2⟩
    | succ k ih =>
      rw [hstep]
      have := elps_descent9 h0 h1 hroot hE0 ih.1 ih.2
      exact ⟨this.1, this.2.1.trans ih.2⟩
  refine ⟨Es, hroot, fun j hj => ?_, fun j hj => ?_⟩
  swap
  · have := (elps_descent9 h0 h1 hroot hE0 (hin (j - 1)).1 (hin (j - 1)).2).2.1
    rw [← hstep] at this
    simpa only [hu, show j - 1 + 1 = j by omega] using this
  have hd := decay (δ := fun k => u k - Es) (ρ := 2 / 3) (c := 9 / 2) (D := 3.15) (n := 9) (by norm_num) (by norm_num)
    (fun k => sub_nonneg.2 (hin k).1) (by have := Real.pi_lt_d2; linarith [(hin 0).2])
    (fun k => by rw [hstep]; exact (elps_descent9 h0 h1 hroot hE0 (hin k).1 (hin k).2).2.2.1)
    (fun k => by rw [hstep]; exact (elps_descent9 h0 h1 hroot hE0 (hin k).1 (hin k).2).2.2.2)
    (by norm_num) (j - 10)
  have hj : 9 + (j - 10) + 1 = j := by omega
  simp only [hu, hj] at hd
  have hge := (hin (j - 1)).1
  simp only [hu, show j - 1 + 1 = j by omega] at hge
  refine ⟨hge, hd.trans ?_⟩
  have h2 : (1 / 2 : ℝ) ^ 2 ^ (j - 10) ≤ (1 / 2) ^ 2 ^ 5 :=
    pow_le_pow_of_le_one (by norm_num) (by norm_num) (Nat.pow_le_pow_right (by norm_num) (by omega))
  rw [div_le_iff₀ (by norm_num)]
  refine h2.trans (by norm_num)

end

/-- C18, the part that holds: for every mean anomaly and every eccentricity up to `0.9935` the default call (and
every call with at least 16 iterations) returns a value whose residual is at most `e · 10⁻¹²/2`.
Eccentricities up to `0.9965`: `C18_elps_default_9965_partial`. Missing from the full claim: those above (false from `0.9973` on by `C18_elps_cycle_refuted`). -/
theorem C18_elps_default_9935_partial {e : ℝ} (h0 : 0 ≤ e) (h1 : e ≤ 1987 / 2000) (M : ℝ) (max_iter : ℕ := 20)
    (hn : 16 ≤ max_iter) :
    ∃ E, solve_kepler_elps M e defaultTol max_iter = some E ∧
      |kepler_equ_elps E e M| ≤ e * (1 / 1000000) ^ 2 / 2 := by
  have htol : (defaultTol : ℝ) = 1 / 1000000 := by norm_num [defaultTol]
  have key : ∀ M : ℝ, 0 ≤ M → M ≤ Real.pi → ∃ E, solve_kepler_elps M e defaultTol max_iter = some E ∧
      |kepler_equ_elps E e M| ≤ e * (1 / 1000000) ^ 2 / 2 := by
    intro M hM0 hMp
    obtain ⟨Es, -, hj, hm⟩ := elps_fast9 h0 h1 hM0 hMp
    have hstep : |(newtonElps M e)^[15 + 1] (elpsStart M e) - (newtonElps M e)^[15] (elpsStart M e)| ≤ defaultTol := by
      have a := hj 15 le_rfl
      have b := hm 15 le_rfl
      rw [htol, abs_sub_comm, abs_of_nonneg (by linarith)]
      have c := (hj 16 (by norm_num)).1
      have d := a.2
      rw [show (1e-6 : ℝ) = 1 / 1000000 by norm_num] at d
      linarith
    have := elps_returns_accurate h0 (by linarith) (tol := defaultTol) (by rw [htol]; norm_num)
      (by rw [htol]; linarith) M (by omega : 15 < max_iter) hstep
    rwa [show e * (1 / 1000000) ^ 2 / 2 = e * (defaultTol : ℝ) ^ 2 / 2 by rw [htol]]
  have key2 : ∀ M : ℝ, |M| ≤ Real.pi → ∃ E, solve_kepler_elps M e defaultTol max_iter = some E ∧
      |kepler_equ_elps E e M| ≤ e * (1 / 1000000) ^ 2 / 2 := by
    intro M hM
    rcases le_total 0 M with h | h
    · exact key M h ((le_abs_self M).trans hM)
    · obtain ⟨E, hE, hres⟩ := key (-M) (by linarith) ((neg_le_abs M).trans hM)
      have hodd := C17_elps_odd (-M) e defaultTol max_iter
      rw [neg_neg, hE] at hodd
      refine ⟨-E, hodd, ?_⟩
      have : kepler_equ_elps (-E) e M = -kepler_equ_elps E e (-M) := by
        rw [kep_elps_eq, kep_elps_eq, Real.sin_neg]; ring
      rwa [this, abs_neg]
  obtain ⟨k, hk⟩ : ∃ k : ℤ, |M - 2 * Real.pi * k| ≤ Real.pi := by
    refine ⟨round (M / (2 * Real.pi)), ?_⟩
    have h := abs_sub_round (M / (2 * Real.pi))
    have hp := Real.pi_pos
    have he : M - 2 * Real.pi * round (M / (2 * Real.pi))
        = 2 * Real.pi * (M / (2 * Real.pi) - round (M / (2 * Real.pi))) := by field_simp
    rw [he, abs_mul, abs_of_pos (by linarith)]
    nlinarith
  obtain ⟨E, hE, hres⟩ := key2 _ hk
  have hper := C17_elps_periodic (M - 2 * Real.pi * k) e defaultTol max_iter k
  rw [sub_add_cancel, hE] at hper
  refine ⟨_, hper, ?_⟩
  have : kepler_equ_elps (E + 2 * Real.pi * k) e M = kepler_equ_elps E e (M - 2 * Real.pi * k) := by
    rw [kep_elps_eq, kep_elps_eq, mul_comm (2 * Real.pi), Real.sin_add_int_mul_two_pi]; ring
  rwa [this]

/-- `e = 0.99`. -/
example (M : ℝ) : ∃ E, solve_kepler_elps M (99 / 100) defaultTol 20 = some E ∧
    |kepler_equ_elps E (99 / 100) M| ≤ 99 / 100 * (1 / 1000000) ^ 2 / 2 :=
  C18_elps_default_9935_partial (by norm_num) (by norm_num) M 20 (by norm_num)

end Adx
