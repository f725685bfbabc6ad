import Verif.Props.C18i
import Verif.Props.C63c

/-! # C63, continued: accuracy of the derivative of the eccentric anomaly up to eccentricity 0.9965

Above `0.9943` the first step may end beyond apoapsis; the step back amplifies tangents by a bounded factor. -/

namespace Adx
open Set Spec

/-- What the tangents need to know about the iterates. -/
structure ElpsOrbit10 (M e r : ℝ) : Prop where
  step : ∀ k, |(newtonElps M e)^[k] (elpsStart M e) - (newtonElps M e)^[k + 1] (elpsStart M e)| ≤ 21 / 5
  damp1 : |(newtonElps M e)^[1] (elpsStart M e) - (newtonElps M e)^[1 + 1] (elpsStart M e)|
    * |e * Real.sin ((newtonElps M e)^[1] (elpsStart M e))|
      ≤ 21 / 5 * (1 - e * Real.cos ((newtonElps M e)^[1] (elpsStart M e)))
  damp : ∀ k, 2 ≤ k → |(newtonElps M e)^[k] (elpsStart M e) - (newtonElps M e)^[k + 1] (elpsStart M e)|
    * |e * Real.sin ((newtonElps M e)^[k] (elpsStart M e))| ≤ 1 - e * Real.cos ((newtonElps M e)^[k] (elpsStart M e))
  near : ∀ k, |(newtonElps M e)^[k] (elpsStart M e) - r|
    ≤ 3 * |(newtonElps M e)^[k] (elpsStart M e) - (newtonElps M e)^[k + 1] (elpsStart M e)|
  small : |(newtonElps M e)^[16] (elpsStart M e) - (newtonElps M e)^[17] (elpsStart M e)| ≤ 1 / 10 ^ 6

/-- A step from between the root and `π` damps tangents. -/
theorem elps_damp {M e r x : ℝ} (h0 : 0 ≤ e) (h1 : e ≤ 1993 / 2000) (hM0 : 0 ≤ M)
    (hroot : kepler_equ_elps r e M = 0) (hr : 0 ≤ r) (a : r ≤ x) (b : x ≤ Real.pi) :
    |x - newtonElps M e x| * |e * Real.sin x| ≤ 1 - e * Real.cos x := by
  have c := hr.trans a
  have hs := Real.sin_nonneg_of_nonneg_of_le_pi c b
  have hd := elps_descent10 h0 h1 hroot hr a b
  rw [abs_of_nonneg (by linarith), abs_of_nonneg (mul_nonneg h0 hs)]
  have hp : 0 < 1 - e * Real.cos x := by
    have := dE_ge h0 x; rw [dE_eq] at this; linarith
  have he : x - newtonElps M e x = (x - e * Real.sin x - M) / (1 - e * Real.cos x) := by
    simp only [newtonElps, kep_elps_eq, dE_eq]; ring
  rw [he, div_mul_eq_mul_div, div_le_iff₀ hp]
  have h3 := mul_le_mul_of_nonneg_left (sin_cos_le c b) h0
  have hsc := Real.sin_sq_add_cos_sq x
  have h4 : 0 ≤ M * (e * Real.sin x) := mul_nonneg hM0 (mul_nonneg h0 hs)
  have h5 : e ^ 2 * (Real.sin x ^ 2 + Real.cos x ^ 2) = e ^ 2 := by rw [hsc, mul_one]
  nlinarith [sq_nonneg (1 - e)]

/-- The first step ends between the root and `π`, or beyond apoapsis but below `4.15`. -/
theorem elps_first_cases {M e r : ℝ} (h0 : 0 ≤ e) (h1 : e ≤ 1993 / 2000) (he : 49 / 50 ≤ e) (hM0 : 0 ≤ M)
    (hMp : M ≤ Real.pi) (hroot : kepler_equ_elps r e M = 0) (hr : 0 ≤ r) (hrp : r ≤ Real.pi) :
    let x := newtonElps M e (elpsStart M e)
    r ≤ x ∧ (x ≤ Real.pi ∨ M ≤ 0.07 ∧ Real.pi ≤ x ∧ x ≤ 4.15) := by
  obtain ⟨hx1, hx2⟩ := elpsStart_range h0 hM0 hMp (by linarith)
  have hpos : 0 < dE (elpsStart M e) e := by linarith [dE_ge h0 (elpsStart M e)]
  refine ⟨newton_ge_root (fun s => hasDerivAt_elps s e M) hroot hpos
      (fun s hs => dE_mono h0 (hr.trans hs.1) hs.2 hx2)
      (fun s hs => dE_mono h0 (hM0.trans hx1) hs.1 (hs.2.trans hrp)), ?_⟩
  rcases le_total (newtonElps M e (elpsStart M e)) Real.pi with hle | hge
  · exact .inl hle
  rcases le_total M 0.07 with hM7 | hM7
  · refine .inr ⟨hM7, hge, ?_⟩
    have h := elps_first_tangent_far h0 h1 hM0 he hM7
    simp only at h
    have : -(4.15 - elpsStart M e) ≤ kepler_equ_elps (elpsStart M e) e M / dE (elpsStart M e) e := by
      rw [le_div_iff₀ hpos]; linarith
    rw [newtonElps_eq, newton]
    linarith
  · refine .inl ?_
    have h := elps_first_tangent10 h0 h1 hM0 hMp he hM7
    simp only at h
    have : -(Real.pi - elpsStart M e) ≤ kepler_equ_elps (elpsStart M e) e M / dE (elpsStart M e) e := by
      rw [le_div_iff₀ hpos]; linarith
    rw [newtonElps_eq, newton]
    linarith

/-- A step back from beyond apoapsis. -/
theorem elps_back {M e r x : ℝ} (h0 : 0 ≤ e) (h1 : e ≤ 1993 / 2000) (he : 49 / 50 ≤ e) (hM0 : 0 ≤ M)
    (hM7 : M ≤ 0.07) (hroot : kepler_equ_elps r e M = 0) (hr : 0 ≤ r) (hx1 : Real.pi ≤ x) (hx2 : x ≤ 4.15) :
    |x - newtonElps M e x| * |e * Real.sin x| ≤ 21 / 5 * (1 - e * Real.cos x) ∧
      |x - r| ≤ 3 * |x - newtonElps M e x| := by
  have hp := Real.pi_gt_d2
  have hp' := Real.pi_lt_d2
  obtain ⟨ha, hb⟩ := elps_return h0 h1 hM0 he hM7 hroot hx1 hx2
  have hc : Real.cos x ≤ 0 := Real.cos_nonpos_of_pi_div_two_le_of_le (by linarith) (by linarith)
  have hs : Real.sin x ≤ 0 := by
    have : 0 ≤ Real.sin (x - Real.pi) := Real.sin_nonneg_of_nonneg_of_le_pi (by linarith) (by linarith)
    rw [Real.sin_sub_pi] at this; linarith
  have hec : e * Real.cos x ≤ 0 := mul_nonpos_of_nonneg_of_nonpos h0 hc
  have hes : e * Real.sin x ≤ 0 := mul_nonpos_of_nonneg_of_nonpos h0 hs
  have hec1 : -1 ≤ e * Real.cos x := by nlinarith [Real.neg_one_le_cos x]
  constructor
  · have h2 : |e * Real.sin x| ≤ 1 := by
      rw [abs_mul, abs_of_nonneg h0]
      nlinarith [Real.abs_sin_le_one x, abs_nonneg (Real.sin x)]
    have h3 : |x - newtonElps M e x| ≤ 21 / 5 := by
      rw [abs_of_nonneg (by linarith)]
      norm_num at hx2; linarith
    have := mul_le_mul h3 h2 (abs_nonneg _) (by norm_num)
    linarith
  · have h4 : 3 / 2 ≤ x - newtonElps M e x := by
      have : x - newtonElps M e x = (x - e * Real.sin x - M) / (1 - e * Real.cos x) := by
        simp only [newtonElps, kep_elps_eq, dE_eq]; ring
      rw [this, le_div_iff₀ (by linarith)]
      norm_num at hM7; linarith
    rw [abs_of_nonneg (by linarith), abs_of_nonneg (by linarith)]
    norm_num at hx2; linarith

theorem elpsOrbit10_nonneg {M e r : ℝ} (h0 : 0 ≤ e) (h1 : e ≤ 1993 / 2000) (he : 49 / 50 ≤ e) (hM0 : 0 ≤ M)
    (hMp : M ≤ Real.pi) (hroot : kepler_equ_elps r e M = 0) : ElpsOrbit10 M e r := by
  have hinj : ∀ a b, kepler_equ_elps a e M = 0 → kepler_equ_elps b e M = 0 → a = b := fun a b ha hb =>
    (existsUnique_root (show (0 : ℝ) < 1 - e by linarith) (fun E => hasDerivAt_elps E e M)
      (fun E => dE_ge h0 E) 0).unique ha hb
  have hr : 0 ≤ r ∧ r ≤ Real.pi := by
    have hc : ContinuousOn (fun E => kepler_equ_elps E e M) (Icc 0 Real.pi) :=
      (continuous_iff_continuousAt.2 fun s => (hasDerivAt_elps s e M).continuousAt).continuousOn
    have := intermediate_value_Icc Real.pi_pos.le hc
    obtain ⟨Es, hEs, hz⟩ := this (show (0 : ℝ) ∈ Icc (kepler_equ_elps 0 e M) (kepler_equ_elps Real.pi e M) by
      rw [kep_elps_eq, kep_elps_eq, Real.sin_zero, Real.sin_pi]
      constructor <;> linarith)
    rw [hinj r Es hroot hz]; exact hEs
  have hpi := Real.pi_lt_d2
  obtain ⟨hx1, hx2⟩ := elpsStart_range h0 hM0 hMp (by linarith)
  set u : ℕ → ℝ := fun k => (newtonElps M e)^[k] (elpsStart M e) with hu
  have hstep : ∀ k, u (k + 1) = newtonElps M e (u k) := fun k => by
    simp only [hu, Function.iterate_succ_apply']
  have hu1 : r ≤ u 1 ∧ (u 1 ≤ Real.pi ∨ M ≤ 0.07 ∧ Real.pi ≤ u 1 ∧ u 1 ≤ 4.15) :=
    elps_first_cases h0 h1 he hM0 hMp hroot hr.1 hr.2
  have hin : ∀ k, r ≤ u (k + 2) ∧ u (k + 2) ≤ Real.pi := by
    intro k
    induction k with
    | zero => exact elps_first_steps10 h0 h1 hM0 hMp he hroot hr.1 hr.2
    | succ k ih =>
      rw [show k + 1 + 2 = (k + 2) + 1 by omega, hstep]
      have := elps_descent10 h0 h1 hroot hr.1 ih.1 ih.2
      exact ⟨this.1, this.2.1.trans ih.2⟩
  have hin0 : ∀ k, 0 ≤ u k ∧ u k ≤ 21 / 5 := by
    intro k
    rcases k with _ | _ | k
    · exact ⟨hM0.trans hx1, hx2.trans (by linarith)⟩
    · refine ⟨hr.1.trans hu1.1, ?_⟩
      rcases hu1.2 with h | ⟨-, -, h⟩
      · linarith
      · norm_num at h ⊢; linarith
    · exact ⟨hr.1.trans (hin k).1, (hin k).2.trans (by linarith)⟩
  refine ⟨fun k => ?_, ?_, fun k hk => ?_, fun k => ?_, ?_⟩
  · have a := hin0 k
    have b := hin0 (k + 1)
    show |u k - u (k + 1)| ≤ _
    rw [abs_le]; constructor <;> linarith
  · show |u 1 - u (1 + 1)| * |e * Real.sin (u 1)| ≤ 21 / 5 * (1 - e * Real.cos (u 1))
    rw [hstep 1]
    rcases hu1.2 with h | ⟨hM7, h2, h3⟩
    · refine (elps_damp h0 h1 hM0 hroot hr.1 hu1.1 h).trans ?_
      have := dE_ge h0 (u 1)
      rw [dE_eq] at this
      linarith
    · exact (elps_back h0 h1 he hM0 hM7 hroot hr.1 h2 h3).1
  · obtain ⟨j, rfl⟩ : ∃ j, k = j + 2 := ⟨k - 2, by omega⟩
    show |u (j + 2) - u (j + 2 + 1)| * |e * Real.sin (u (j + 2))| ≤ 1 - e * Real.cos (u (j + 2))
    rw [hstep (j + 2)]
    exact elps_damp h0 h1 hM0 hroot hr.1 (hin j).1 (hin j).2
  · show |u k - r| ≤ 3 * |u k - u (k + 1)|
    have inside : r ≤ u k → u k ≤ Real.pi → |u k - r| ≤ 3 * |u k - u (k + 1)| := fun h h' => by
      have hd := elps_descent10 h0 h1 hroot hr.1 h h'
      rw [← hstep] at hd
      rw [abs_of_nonneg (by linarith), abs_of_nonneg (by linarith)]
      linarith
    rcases k with _ | _ | k
    · rcases le_total r (u 0) with h | h
      · exact inside h hx2
      · have := hu1.1
        rw [abs_of_nonpos (by linarith), abs_of_nonpos (by linarith)]
        linarith
    · rcases hu1.2 with h | ⟨hM7, h2, h3⟩
      · exact inside hu1.1 h
      · rw [hstep (0 + 1)]
        exact (elps_back h0 h1 he hM0 hM7 hroot hr.1 h2 h3).2
    · exact inside (hin k).1 (hin k).2
  · obtain ⟨Es, hz, hj, hm⟩ := elps_fast10 h0 h1 hM0 hMp he
    have a := hj 16 le_rfl
    have b := (hj 17 (by norm_num)).1
    have c := hm 16 le_rfl
    rw [abs_of_nonneg (by linarith)]
    have d := a.2
    rw [show (1e-6 : ℝ) = 1 / 10 ^ 6 by norm_num] at d
    linarith

theorem elpsOrbit10 {M e r : ℝ} (h0 : 0 ≤ e) (h1 : e ≤ 1993 / 2000) (he : 49 / 50 ≤ e) (hroot : kepler_equ_elps r e M = 0) :
    ElpsOrbit10 M e r := by
  have key : ∀ M r : ℝ, |M| ≤ Real.pi → kepler_equ_elps r e M = 0 → ElpsOrbit10 M e r := by
    intro M r hM hroot
    rcases le_total 0 M with h | h
    · exact elpsOrbit10_nonneg h0 h1 he h ((le_abs_self M).trans hM) hroot
    · have g := elpsOrbit10_nonneg (M := -M) (r := -r) h0 h1 he (by linarith) ((neg_le_abs M).trans hM) (by
        rw [kep_elps_eq] at hroot ⊢; rw [Real.sin_neg]; linarith)
      obtain ⟨a, b1, b, c, d⟩ := g
      simp only [elpsIter_neg, neg_sub_neg, Real.sin_neg, Real.cos_neg, mul_neg, abs_neg] at a b1 b c d
      refine ⟨fun k => ?_, ?_, fun k hk => ?_, fun k => ?_, ?_⟩
      · rw [abs_sub_comm]; exact a k
      · rw [abs_sub_comm]; exact b1
      · rw [abs_sub_comm]; exact b k hk
      · rw [abs_sub_comm, abs_sub_comm ((newtonElps M e)^[k] _)]; exact c k
      · rw [abs_sub_comm]; exact d
  obtain ⟨k, hk⟩ : ∃ k : ℤ, |M - 2 * Real.pi * k| ≤ Real.pi := by
    refine ⟨round (M / (2 * Real.pi)), ?_⟩
    have h := abs_sub_round (M / (2 * Real.pi))
    have hp := Real.pi_pos
    have he : M - 2 * Real.pi * round (M / (2 * Real.pi))
        = 2 * Real.pi * (M / (2 * Real.pi) - round (M / (2 * Real.pi))) := by field_simp
    rw [he, abs_mul, abs_of_pos (by linarith)]
    nlinarith
  have hsin : ∀ x : ℝ, Real.sin (x - 2 * Real.pi * k) = Real.sin x := fun x => by
    rw [mul_comm (2 * Real.pi)]; exact Real.sin_sub_int_mul_two_pi x k
  have hcos : ∀ x : ℝ, Real.cos (x - 2 * Real.pi * k) = Real.cos x := fun x => by
    rw [mul_comm (2 * Real.pi)]; exact Real.cos_sub_int_mul_two_pi x k
  have hit : ∀ j, (newtonElps (M - 2 * Real.pi * k) e)^[j] (elpsStart (M - 2 * Real.pi * k) e)
      = (newtonElps M e)^[j] (elpsStart M e) - 2 * Real.pi * k := fun j => by
    have := elpsIter_add (M - 2 * Real.pi * k) e k j
    rw [sub_add_cancel] at this
    linarith
  obtain ⟨a, b1, b, c, d⟩ := key _ (r - 2 * Real.pi * k) hk (by
    rw [kep_elps_eq] at hroot ⊢; rw [hsin]; linarith)
  simp only [hit, sub_sub_sub_cancel_right, hsin, hcos] at a b1 b c d
  exact ⟨a, b1, b, c, d⟩

/-- Curvature over slope. -/
theorem sin_div_dE10 {e s : ℝ} (h0 : 0 ≤ e) (h1 : e ≤ 1993 / 2000) : |e * Real.sin s| ≤ 12 * (1 - e * Real.cos s) := by
  have hsc := Real.sin_sq_add_cos_sq s
  have key : ∀ t : ℝ, t ^ 2 = Real.sin s ^ 2 → e * t ≤ 12 * (1 - e * Real.cos s) := by
    intro t ht
    have h4 : (e * (t + 12 * Real.cos s)) ^ 2 ≤ 12 ^ 2 := by
      have h5 : (t + 12 * Real.cos s) ^ 2 ≤ 145 := by nlinarith [sq_nonneg (12 * t - Real.cos s)]
      have h6 : e ^ 2 ≤ (1993 / 2000) ^ 2 := pow_le_pow_left₀ h0 h1 2
      rw [mul_pow]
      have := mul_le_mul h6 h5 (sq_nonneg _) (by norm_num)
      exact this.trans (by norm_num)
    have := abs_le_of_sq_le_sq' h4 (by norm_num)
    linarith [this.2]
  rw [abs_mul, abs_of_nonneg h0]
  exact key _ (sq_abs _)

/-- The derivative of the root is Lipschitz in the root, with a constant proportional to `1/(1 - e)`. -/
theorem rootDeriv_lipschitz10 {e' M' e : ℝ} (h0 : 0 ≤ e) (h1 : e ≤ 1993 / 2000) (x y : ℝ) :
    |(M' + e' * Real.sin x) / (1 - e * Real.cos x) - (M' + e' * Real.sin y) / (1 - e * Real.cos y)|
      ≤ 13 * (|M'| + |e'|) / (1 - e) * |x - y| := by
  have hf : ∀ s, 1 - e ≤ 1 - e * Real.cos s := fun s => by have := dE_ge h0 s; rwa [dE_eq] at this
  have hd : ∀ s, HasDerivAt (fun s => (M' + e' * Real.sin s) / (1 - e * Real.cos s))
      ((e' * Real.cos s * (1 - e * Real.cos s) - (M' + e' * Real.sin s) * (e * Real.sin s)) / (1 - e * Real.cos s) ^ 2) s :=
    fun s => by
    have a := ((Real.hasDerivAt_sin s).const_mul e').const_add M'
    have b := ((Real.hasDerivAt_cos s).const_mul e).const_sub 1
    refine (a.fun_div b (by have := hf s; linarith)).congr_deriv ?_
    ring
  have hb : ∀ s, ‖(e' * Real.cos s * (1 - e * Real.cos s) - (M' + e' * Real.sin s) * (e * Real.sin s))
      / (1 - e * Real.cos s) ^ 2‖ ≤ 13 * (|M'| + |e'|) / (1 - e) := fun s => by
    have hp : 0 < 1 - e * Real.cos s := by have := hf s; linarith
    have hp1 : 0 < 1 - e := by linarith
    have hn : |M' + e' * Real.sin s| ≤ |M'| + |e'| := by
      refine (abs_add_le _ _).trans ?_
      rw [abs_mul]
      nlinarith [Real.abs_sin_le_one s, abs_nonneg e']
    have hc : |e' * Real.cos s| ≤ |M'| + |e'| := by
      rw [abs_mul]
      nlinarith [Real.abs_cos_le_one s, abs_nonneg e', abs_nonneg M']
    have hS : 0 ≤ |M'| + |e'| := by positivity
    have hnum : |e' * Real.cos s * (1 - e * Real.cos s) - (M' + e' * Real.sin s) * (e * Real.sin s)|
        ≤ 13 * (|M'| + |e'|) * (1 - e * Real.cos s) := by
      refine (abs_sub _ _).trans ?_
      rw [abs_mul, abs_mul (M' + _), abs_of_pos hp]
      have a := mul_le_mul_of_nonneg_right hc hp.le
      have b := mul_le_mul hn (sin_div_dE10 (s := s) h0 h1) (abs_nonneg _) hS
      linarith
    rw [Real.norm_eq_abs, abs_div, abs_of_pos (by positivity : 0 < (1 - e * Real.cos s) ^ 2),
      div_le_div_iff₀ (by positivity) hp1]
    have h2 := mul_le_mul_of_nonneg_right hnum hp1.le
    have h3 : 13 * (|M'| + |e'|) * (1 - e * Real.cos s) * (1 - e)
        ≤ 13 * (|M'| + |e'|) * (1 - e * Real.cos s) * (1 - e * Real.cos s) :=
      mul_le_mul_of_nonneg_left (hf s) (by positivity)
    nlinarith
  have := convex_univ.norm_image_sub_le_of_norm_hasDerivWithin_le (fun s _ => (hd s).hasDerivWithinAt)
    (fun s _ => hb s) (mem_univ y) (mem_univ x)
  simpa [Real.norm_eq_abs] using this


section
variable {M e : ℝ → ℝ} {s : ℝ} {M' e' : Dual ℝ}

/-- The tangents of the iterates. -/
theorem elps_tangent_le10 {r : ℝ} (hM : Tracks M s M') (he : Tracks e s e') (he0 : 0 ≤ e s) (he1 : e s ≤ 1993 / 2000)
    (he2 : 49 / 50 ≤ e s)
    (hroot : kepler_equ_elps r (e s) (M s) = 0) (k : ℕ) :
    |Dual.dot ((newtonElps M' e')^[k] (elpsStart M' e'))|
      ≤ (636 + (k + 4) * (26 / 5) / (1 - e s)) * (|Dual.dot M'| + |Dual.dot e'|) := by
  have orb := elpsOrbit10 he0 he1 he2 hroot
  have a0 := abs_nonneg (Dual.dot M')
  have b0 := abs_nonneg (Dual.dot e')
  have hpi := Real.pi_lt_d2
  have hp1 : 0 < 1 - e s := by linarith
  have hG : ∀ x, |(Dual.dot M' + Dual.dot e' * Real.sin x) / (1 - e s * Real.cos x)|
      ≤ (|Dual.dot M'| + |Dual.dot e'|) / (1 - e s) := fun x => by
    have hf : 1 - e s ≤ 1 - e s * Real.cos x := by have := dE_ge he0 x; rwa [dE_eq] at this
    rw [abs_div, abs_of_pos (by linarith : 0 < 1 - e s * Real.cos x)]
    have : |Dual.dot M' + Dual.dot e' * Real.sin x| ≤ |Dual.dot M'| + |Dual.dot e'| := by
      refine (abs_add_le _ _).trans ?_
      rw [abs_mul]; nlinarith [Real.abs_sin_le_one x]
    gcongr
  -- one step
  have hone : ∀ k Q, |(newtonElps (M s) (e s))^[k] (elpsStart (M s) (e s))
        - (newtonElps (M s) (e s))^[k + 1] (elpsStart (M s) (e s))|
        * |e s * Real.sin ((newtonElps (M s) (e s))^[k] (elpsStart (M s) (e s)))|
        ≤ Q * (1 - e s * Real.cos ((newtonElps (M s) (e s))^[k] (elpsStart (M s) (e s)))) →
      |Dual.dot ((newtonElps M' e')^[k + 1] (elpsStart M' e'))|
        ≤ Q * |Dual.dot ((newtonElps M' e')^[k] (elpsStart M' e'))|
          + 26 / 5 / (1 - e s) * (|Dual.dot M'| + |Dual.dot e'|) := by
    intro k Q hQ
    have hst := orb.step k
    rw [Function.iterate_succ_apply'] at hQ hst ⊢
    have h := newton_tangent_grow hM he (C63_elps_iterate hM he he0 (by linarith) k) he0 (by linarith) hQ hst
    have h2 := hG ((newtonElps (M s) (e s))^[k] (elpsStart (M s) (e s)))
    have h3 := abs_sub_abs_le_abs_sub (Dual.dot (newtonElps M' e' ((newtonElps M' e')^[k] (elpsStart M' e'))))
      ((Dual.dot M' + Dual.dot e' * Real.sin ((newtonElps (M s) (e s))^[k] (elpsStart (M s) (e s))))
        / (1 - e s * Real.cos ((newtonElps (M s) (e s))^[k] (elpsStart (M s) (e s)))))
    have h4 : (|Dual.dot M'| + |Dual.dot e'|) / (1 - e s) + 21 / 5 * |Dual.dot e'| / (1 - e s)
        ≤ 26 / 5 / (1 - e s) * (|Dual.dot M'| + |Dual.dot e'|) := by
      rw [← add_div, div_mul_eq_mul_div (26 / 5 : ℝ) (1 - e s)]
      refine div_le_div_of_nonneg_right ?_ hp1.le
      linarith
    linarith
  have hS : (0 : ℝ) ≤ |Dual.dot M'| + |Dual.dot e'| := by positivity
  have hg0 : 0 ≤ 26 / 5 / (1 - e s) * (|Dual.dot M'| + |Dual.dot e'|) := by positivity
  have hT0 := elpsStart_tangent_le hM he he0 (by linarith)
  have hsplit : ∀ c : ℝ, (636 + (c + 4) * (26 / 5) / (1 - e s)) * (|Dual.dot M'| + |Dual.dot e'|)
      = 636 * (|Dual.dot M'| + |Dual.dot e'|) + (c + 4) * (26 / 5 / (1 - e s) * (|Dual.dot M'| + |Dual.dot e'|)) := by
    intro c; ring
  have hT1 : |Dual.dot ((newtonElps M' e')^[1] (elpsStart M' e'))|
      ≤ 151.2 * (|Dual.dot M'| + |Dual.dot e'|) + 26 / 5 / (1 - e s) * (|Dual.dot M'| + |Dual.dot e'|) := by
    have := hone 0 (12 * (21 / 5)) (by
      have h1 := sin_div_dE10 (s := (newtonElps (M s) (e s))^[0] (elpsStart (M s) (e s))) he0 he1
      have h3 := mul_le_mul (orb.step 0) h1 (abs_nonneg _) (by norm_num)
      linarith)
    simp only [Function.iterate_zero, id] at this
    norm_num at this ⊢
    linarith
  have hT2 : |Dual.dot ((newtonElps M' e')^[2] (elpsStart M' e'))|
      ≤ 636 * (|Dual.dot M'| + |Dual.dot e'|) + 6 * (26 / 5 / (1 - e s) * (|Dual.dot M'| + |Dual.dot e'|)) := by
    have := hone 1 (21 / 5) orb.damp1
    norm_num at this hT1 ⊢
    linarith
  rcases k with _ | _ | k
  · rw [hsplit]
    simp only [Function.iterate_zero, id, Nat.cast_zero]
    linarith
  · rw [hsplit]
    norm_num at hT1 ⊢
    linarith
  · induction k with
    | zero =>
      rw [hsplit]
      norm_num at hT2 ⊢
      linarith
    | succ k ih =>
      have := hone (k + 1 + 1) 1 (by rw [one_mul]; exact orb.damp _ (by omega))
      rw [hsplit] at ih ⊢
      push_cast at ih ⊢
      linarith

/-- C63: with the default tolerance and iteration limit and `e ≤ 0.9965`, for every mean anomaly and all curves of
arguments, forward mode returns the derivative of the eccentric anomaly up to `9e-3/(1 - e)` times the size of the
tangents that went in; the derivative itself is of the order `1/(1 - e)` near periapsis. -/
theorem C63_elps_default_9965_partial {Es : ℝ → ℝ} (hM : Tracks M s M') (he : Tracks e s e') (he0 : 0 ≤ e s)
    (he1 : e s ≤ 1993 / 2000) (hroot : ∀ᶠ x in nhds s, kepler_equ_elps (Es x) (e x) (M x) = 0) :
    ∃ d D, solve_kepler_elps M' e' = some d ∧ HasDerivAt Es D s ∧
      |Dual.dot d - D| ≤ 9 / 10 ^ 3 * (|Dual.dot M'| + |Dual.dot e'|) / (1 - e s) := by
  have hlt : e s < 1 := by linarith
  have hp1 : 0 < 1 - e s := by linarith
  rcases le_total (e s) (1987 / 2000) with hle | hge
  · obtain ⟨d, D, a, b, c⟩ := C63_elps_default_9935_partial hM he he0 hle hroot
    refine ⟨d, D, a, b, c.trans ?_⟩
    have : 0 ≤ |Dual.dot M'| + |Dual.dot e'| := by positivity
    refine div_le_div_of_nonneg_right (mul_le_mul_of_nonneg_right ?_ this) hp1.le
    norm_num
  have he2 : 49 / 50 ≤ e s := by linarith
  have hroots := hroot.self_of_nhds
  have orb := elpsOrbit10 he0 he1 he2 hroots
  have htol : (defaultTol : ℝ) = 1 / 10 ^ 6 := by simp only [defaultTol]; norm_num
  obtain ⟨k, hk, hd, -, h1, h2⟩ := elps_dual hM he he0 hlt defaultTol 20
  have hk16 : k ≤ 17 := by
    by_contra hcon
    have := h1 17 (by omega)
    have h16 := orb.small
    rw [abs_sub_comm, ← htol] at h16
    exact absurd this (not_lt.2 h16)
  have h2 := h2 (by omega)
  rcases k with _ | j
  · exfalso
    simp only [Function.iterate_zero, id_eq, prevOf] at h2
    rw [sub_add_cancel_left, abs_neg, htol] at h2
    norm_num at h2
  simp only [prevOf] at h2
  rw [abs_sub_comm, htol] at h2
  refine ⟨_, _, hd, elps_root_deriv hM he he0 hlt hroot, ?_⟩
  have hn := orb.near j
  have hT := elps_tangent_le10 hM he he0 he1 he2 hroots j
  rw [Function.iterate_succ_apply'] at h2 hn ⊢
  have hg := newton_tangent_grow (Q := 12 / 10 ^ 6) hM he (C63_elps_iterate hM he he0 hlt j) he0 hlt (by
    have h3 := mul_le_mul h2 (sin_div_dE10 (s := (newtonElps (M s) (e s))^[j] (elpsStart (M s) (e s))) he0 he1)
      (abs_nonneg _) (by norm_num)
    linarith) h2
  have hL := rootDeriv_lipschitz10 (M' := Dual.dot M') (e' := Dual.dot e') he0 he1
    ((newtonElps (M s) (e s))^[j] (elpsStart (M s) (e s))) (Es s)
  have hj : (j : ℝ) ≤ 16 := by exact_mod_cast (by omega : j ≤ 16)
  set S := |Dual.dot M'| + |Dual.dot e'| with hS
  have hS0 : 0 ≤ S := by positivity
  have hb : |Dual.dot e'| ≤ S := by rw [hS]; linarith [abs_nonneg (Dual.dot M')]
  refine (abs_sub_le _ _ _).trans ((add_le_add hg hL).trans ?_)
  have a1 : 12 / 10 ^ 6 * |Dual.dot ((newtonElps M' e')^[j] (elpsStart M' e'))|
      ≤ 12 / 10 ^ 6 * ((636 + (16 + 4) * (26 / 5) / (1 - e s)) * S) := by
    refine mul_le_mul_of_nonneg_left (hT.trans ?_) (by norm_num)
    gcongr
  have a2 : 1 / 10 ^ 6 * |Dual.dot e'| / (1 - e s) ≤ 1 / 10 ^ 6 * S / (1 - e s) := by gcongr
  have a3 : 13 * S / (1 - e s) * |(newtonElps (M s) (e s))^[j] (elpsStart (M s) (e s)) - Es s|
      ≤ 13 * S / (1 - e s) * (3 * (1 / 10 ^ 6)) := by
    refine mul_le_mul_of_nonneg_left (hn.trans ?_) (by positivity)
    linarith
  have a4 : 636 * S ≤ 636 * S / (1 - e s) := by
    rw [le_div_iff₀ hp1]
    have : 636 * S * (1 - e s) ≤ 636 * S * 1 := mul_le_mul_of_nonneg_left (by linarith) (by positivity)
    linarith
  have a5 : 0 ≤ S / (1 - e s) := by positivity
  have b1 : (636 + (16 + 4) * (26 / 5) / (1 - e s)) * S = 636 * S + 104 * (S / (1 - e s)) := by ring
  rw [b1] at a1
  simp only [mul_div_assoc] at a2 a3 a4 ⊢
  linarith


/-- A case meeting the hypotheses: `e = 0.996`, differentiated with respect to the mean anomaly at any `M`. The
derivative reaches 250 at periapsis. -/
example (M : ℝ) : ∃ Es : ℝ → ℝ, (∀ x, kepler_equ_elps (Es x) (249 / 250) x = 0) ∧
    ∃ d D, solve_kepler_elps (⟨M, some 1⟩ : Dual ℝ) (cst (249 / 250)) = some d ∧ HasDerivAt Es D M ∧
      |Dual.dot d - D| ≤ 9 / 4 := by
  have h : ∀ x : ℝ, ∃ E : ℝ, kepler_equ_elps E (249 / 250) x = 0 := fun x =>
    (existsUnique_root (show (0 : ℝ) < 1 - 249 / 250 by norm_num) (fun E => hasDerivAt_elps E (249 / 250) x)
      (fun E => dE_ge (by norm_num) E) 0).exists
  choose Es hEs using h
  obtain ⟨d, D, h1, h2, h3⟩ := C63_elps_default_9965_partial (Es := Es) (Tracks.var M) (Tracks.const (249 / 250)) (by norm_num)
    (by norm_num) (.of_forall hEs)
  exact ⟨Es, hEs, d, D, h1, h2, h3.trans (by norm_num [Dual.dot])⟩

end

end Adx
