import Verif.Props.C18f
import Verif.Props.C63

/-! # C63, continued: accuracy of the derivative of the eccentric anomaly up to eccentricity 0.9935

After the first step Newton's map contracts, or at least does not expand, so tangents grow by at most a constant per
step; the last step damps what they have picked up. -/

namespace Adx
open Set Spec

/-! ### the iteration -/

theorem sin_cos_le {x : ℝ} (h0 : 0 ≤ x) (hp : x ≤ Real.pi) : x * Real.sin x + 2 * Real.cos x ≤ 2 := by
  have d2 : ∀ s, HasDerivAt (fun s => Real.sin s - s * Real.cos s) (s * Real.sin s) s := fun s => by
    refine ((Real.hasDerivAt_sin s).fun_sub ((hasDerivAt_id' s).fun_mul (Real.hasDerivAt_cos s))).congr_deriv ?_
    ring
  have h2 : ∀ s ∈ Icc 0 Real.pi, 0 ≤ Real.sin s - s * Real.cos s := fun s hs => by
    have := mono_of_deriv_nonneg d2 (fun s hs => mul_nonneg hs.1 (Real.sin_nonneg_of_mem_Icc hs))
      (left_mem_Icc.2 (hs.1.trans hs.2)) hs hs.1
    simpa using this
  have d1 : ∀ s, HasDerivAt (fun s => 2 - 2 * Real.cos s - s * Real.sin s) (Real.sin s - s * Real.cos s) s := fun s => by
    refine ((((Real.hasDerivAt_cos s).const_mul 2).const_sub 2).fun_sub
      ((hasDerivAt_id' s).fun_mul (Real.hasDerivAt_sin s))).congr_deriv ?_
    ring
  have := mono_of_deriv_nonneg d1 h2 (left_mem_Icc.2 Real.pi_pos.le) ⟨h0, hp⟩ h0
  simp only [Real.cos_zero, zero_mul] at this
  linarith

/-- What the tangents need to know about the iterates. -/
structure ElpsOrbit (M e r : ℝ) : Prop where
  step : ∀ k, |(newtonElps M e)^[k] (elpsStart M e) - (newtonElps M e)^[k + 1] (elpsStart M e)| ≤ Real.pi
  damp : ∀ k, 1 ≤ k → |(newtonElps M e)^[k] (elpsStart M e) - (newtonElps M e)^[k + 1] (elpsStart M e)|
    * |e * Real.sin ((newtonElps M e)^[k] (elpsStart M e))| ≤ 1 - e * Real.cos ((newtonElps M e)^[k] (elpsStart M e))
  near : ∀ k, |(newtonElps M e)^[k] (elpsStart M e) - r|
    ≤ 3 * |(newtonElps M e)^[k] (elpsStart M e) - (newtonElps M e)^[k + 1] (elpsStart M e)|
  small : |(newtonElps M e)^[15] (elpsStart M e) - (newtonElps M e)^[16] (elpsStart M e)| ≤ 1 / 10 ^ 6

theorem elpsOrbit_nonneg {M e r : ℝ} (h0 : 0 ≤ e) (h1 : e ≤ 1987 / 2000) (hM0 : 0 ≤ M) (hMp : M ≤ Real.pi)
    (hroot : kepler_equ_elps r e M = 0) : ElpsOrbit M e r := by
  have hinj : ∀ a b, kepler_equ_elps a e M = 0 → kepler_equ_elps b e M = 0 → a = b := fun a b ha hb =>
    (existsUnique_root (show (0 : ℝ) < 1 - e by linarith) (fun E => hasDerivAt_elps E e M)
      (fun E => dE_ge h0 E) 0).unique ha hb
  have hr : 0 ≤ r ∧ r ≤ Real.pi := by
    have hc : ContinuousOn (fun E => kepler_equ_elps E e M) (Icc 0 Real.pi) :=
      (continuous_iff_continuousAt.2 fun s => (hasDerivAt_elps s e M).continuousAt).continuousOn
    have := intermediate_value_Icc Real.pi_pos.le hc
    obtain ⟨Es, hEs, hz⟩ := this (show (0 : ℝ) ∈ Icc (kepler_equ_elps 0 e M) (kepler_equ_elps Real.pi e M) by
      rw [kep_elps_eq, kep_elps_eq, Real.sin_zero, Real.sin_pi]
      constructor <;> linarith)
    rw [hinj r Es hroot hz]; exact hEs
  obtain ⟨hx1, hx2⟩ := elpsStart_range h0 hM0 hMp (by linarith)
  set u : ℕ → ℝ := fun k => (newtonElps M e)^[k] (elpsStart M e) with hu
  have hstep : ∀ k, u (k + 1) = newtonElps M e (u k) := fun k => by
    simp only [hu, Function.iterate_succ_apply']
  have hin : ∀ k, r ≤ u (k + 1) ∧ u (k + 1) ≤ Real.pi := by
    intro k
    induction k with
    | zero => exact elps_first_step9 h0 h1 hM0 hMp hroot hr.1 hr.2
    | succ k ih =>
      rw [hstep]
      have := elps_descent9 h0 h1 hroot hr.1 ih.1 ih.2
      exact ⟨this.1, this.2.1.trans ih.2⟩
  have hin0 : ∀ k, 0 ≤ u k ∧ u k ≤ Real.pi := by
    intro k
    rcases k with _ | k
    · exact ⟨hM0.trans hx1, hx2⟩
    · exact ⟨hr.1.trans (hin k).1, (hin k).2⟩
  refine ⟨fun k => ?_, fun k hk => ?_, fun k => ?_, ?_⟩
  · have a := hin0 k
    have b := hin0 (k + 1)
    show |u k - u (k + 1)| ≤ _
    rw [abs_le]; constructor <;> linarith
  · obtain ⟨j, rfl⟩ : ∃ j, k = j + 1 := ⟨k - 1, by omega⟩
    show |u (j + 1) - u (j + 1 + 1)| * |e * Real.sin (u (j + 1))| ≤ 1 - e * Real.cos (u (j + 1))
    rw [hstep (j + 1)]
    obtain ⟨a, b⟩ := hin j
    have c := (hin0 (j + 1)).1
    set x := u (j + 1)
    have hs := Real.sin_nonneg_of_nonneg_of_le_pi c b
    have hd := elps_descent9 h0 h1 hroot hr.1 a b
    rw [abs_of_nonneg (by linarith), abs_of_nonneg (mul_nonneg h0 hs)]
    have hp : 0 < 1 - e * Real.cos x := by
      have := dE_ge h0 x; rw [dE_eq] at this; linarith
    have he : x - newtonElps M e x = (x - e * Real.sin x - M) / (1 - e * Real.cos x) := by
      simp only [newtonElps, kep_elps_eq, dE_eq]; ring
    rw [he, div_mul_eq_mul_div, div_le_iff₀ hp]
    have h3 := mul_le_mul_of_nonneg_left (sin_cos_le c b) h0
    have hsc := Real.sin_sq_add_cos_sq x
    have h4 : 0 ≤ M * (e * Real.sin x) := mul_nonneg hM0 (mul_nonneg h0 hs)
    have h5 : e ^ 2 * (Real.sin x ^ 2 + Real.cos x ^ 2) = e ^ 2 := by rw [hsc, mul_one]
    nlinarith [sq_nonneg (1 - e)]
  · show |u k - r| ≤ 3 * |u k - u (k + 1)|
    rcases le_total r (u k) with h | h
    · have hd := elps_descent9 h0 h1 hroot hr.1 h (hin0 k).2
      rw [← hstep] at hd
      rw [abs_of_nonneg (by linarith), abs_of_nonneg (by linarith)]
      linarith
    · have := (hin k).1
      rw [abs_of_nonpos (by linarith), abs_of_nonpos (by linarith)]
      linarith
  · obtain ⟨Es, hz, hj, hm⟩ := elps_fast9 h0 h1 hM0 hMp
    have a := hj 15 le_rfl
    have b := (hj 16 (by norm_num)).1
    have c := hm 15 le_rfl
    rw [abs_of_nonneg (by linarith)]
    have d := a.2
    rw [show (1e-6 : ℝ) = 1 / 10 ^ 6 by norm_num] at d
    linarith

theorem elpsIter_neg (M e : ℝ) (k : ℕ) :
    (newtonElps (-M) e)^[k] (elpsStart (-M) e) = -(newtonElps M e)^[k] (elpsStart M e) := by
  induction k with
  | zero =>
    simp only [Function.iterate_zero, id, elpsStart, sin_real, Nat.cast_ofNat, mul_neg, Real.sin_neg]; ring
  | succ k ih =>
    rw [Function.iterate_succ_apply', ih, Function.iterate_succ_apply']
    simp only [newtonElps, kep_elps_eq, dE_eq, Real.sin_neg, Real.cos_neg]
    generalize (newtonElps M e)^[k] (elpsStart M e) = x
    rw [show -x - e * -Real.sin x - -M = -(x - e * Real.sin x - M) by ring, neg_div]
    ring

theorem elpsIter_add (M e : ℝ) (m : ℤ) (k : ℕ) :
    (newtonElps (M + 2 * Real.pi * m) e)^[k] (elpsStart (M + 2 * Real.pi * m) e)
      = (newtonElps M e)^[k] (elpsStart M e) + 2 * Real.pi * m := by
  have hsin : ∀ x : ℝ, Real.sin (x + 2 * Real.pi * m) = Real.sin x := fun x => by
    rw [mul_comm (2 * Real.pi)]; exact Real.sin_add_int_mul_two_pi x m
  have hcos : ∀ x : ℝ, Real.cos (x + 2 * Real.pi * m) = Real.cos x := fun x => by
    rw [mul_comm (2 * Real.pi)]; exact Real.cos_add_int_mul_two_pi x m
  induction k with
  | zero =>
    simp only [Function.iterate_zero, id, elpsStart, sin_real, Nat.cast_ofNat, Real.sin_two_mul, hsin, hcos]; ring
  | succ k ih =>
    rw [Function.iterate_succ_apply', ih, Function.iterate_succ_apply']
    simp only [newtonElps, kep_elps_eq, dE_eq, hsin, hcos]
    rw [show ∀ a b c d : ℝ, a + b - c - (d + b) = a - c - d by intros; ring]
    ring

theorem elpsOrbit {M e r : ℝ} (h0 : 0 ≤ e) (h1 : e ≤ 1987 / 2000) (hroot : kepler_equ_elps r e M = 0) :
    ElpsOrbit M e r := by
  have key : ∀ M r : ℝ, |M| ≤ Real.pi → kepler_equ_elps r e M = 0 → ElpsOrbit M e r := by
    intro M r hM hroot
    rcases le_total 0 M with h | h
    · exact elpsOrbit_nonneg h0 h1 h ((le_abs_self M).trans hM) hroot
    · have g := elpsOrbit_nonneg (M := -M) (r := -r) h0 h1 (by linarith) ((neg_le_abs M).trans hM) (by
        rw [kep_elps_eq] at hroot ⊢; rw [Real.sin_neg]; linarith)
      obtain ⟨a, b, c, d⟩ := g
      simp only [elpsIter_neg, neg_sub_neg, Real.sin_neg, Real.cos_neg, mul_neg, abs_neg] at a b c d
      refine ⟨fun k => ?_, fun k hk => ?_, fun k => ?_, ?_⟩
      · rw [abs_sub_comm]; exact a k
      · rw [abs_sub_comm]; exact b k hk
      · rw [abs_sub_comm, abs_sub_comm ((newtonElps M e)^[k] _)]; exact c k
      · rw [abs_sub_comm]; exact d
  obtain ⟨k, hk⟩ : ∃ k : ℤ, |M - 2 * Real.pi * k| ≤ Real.pi := by
    refine ⟨round (M / (2 * Real.pi)), ?_⟩
    have h := abs_sub_round (M / (2 * Real.pi))
    have hp := Real.pi_pos
    have he : M - 2 * Real.pi * round (M / (2 * Real.pi))
        = 2 * Real.pi * (M / (2 * Real.pi) - round (M / (2 * Real.pi))) := by field_simp
    rw [he, abs_mul, abs_of_pos (by linarith)]
    nlinarith
  have hsin : ∀ x : ℝ, Real.sin (x - 2 * Real.pi * k) = Real.sin x := fun x => by
    rw [mul_comm (2 * Real.pi)]; exact Real.sin_sub_int_mul_two_pi x k
  have hcos : ∀ x : ℝ, Real.cos (x - 2 * Real.pi * k) = Real.cos x := fun x => by
    rw [mul_comm (2 * Real.pi)]; exact Real.cos_sub_int_mul_two_pi x k
  have hit : ∀ j, (newtonElps (M - 2 * Real.pi * k) e)^[j] (elpsStart (M - 2 * Real.pi * k) e)
      = (newtonElps M e)^[j] (elpsStart M e) - 2 * Real.pi * k := fun j => by
    have := elpsIter_add (M - 2 * Real.pi * k) e k j
    rw [sub_add_cancel] at this
    linarith
  obtain ⟨a, b, c, d⟩ := key _ (r - 2 * Real.pi * k) hk (by
    rw [kep_elps_eq] at hroot ⊢; rw [hsin]; linarith)
  simp only [hit, sub_sub_sub_cancel_right, hsin, hcos] at a b c d
  exact ⟨a, b, c, d⟩

/-! ### the tangents -/

/-- Curvature over slope. -/
theorem sin_div_dE {e s : ℝ} (h0 : 0 ≤ e) (h1 : e ≤ 1987 / 2000) : |e * Real.sin s| ≤ 9 * (1 - e * Real.cos s) := by
  have hsc := Real.sin_sq_add_cos_sq s
  have key : ∀ t : ℝ, t ^ 2 = Real.sin s ^ 2 → e * t ≤ 9 * (1 - e * Real.cos s) := by
    intro t ht
    have h4 : (e * (t + 9 * Real.cos s)) ^ 2 ≤ 9 ^ 2 := by
      have h5 : (t + 9 * Real.cos s) ^ 2 ≤ 82 := by nlinarith [sq_nonneg (9 * t - Real.cos s)]
      have h6 : e ^ 2 ≤ (1987 / 2000) ^ 2 := pow_le_pow_left₀ h0 h1 2
      rw [mul_pow]
      nlinarith [sq_nonneg (t + 9 * Real.cos s), sq_nonneg e]
    have := abs_le_of_sq_le_sq' h4 (by norm_num)
    linarith [this.2]
  rw [abs_mul, abs_of_nonneg h0]
  exact key _ (sq_abs _)

/-- The derivative of the root is Lipschitz in the root, with a constant proportional to `1/(1 - e)`. -/
theorem rootDeriv_lipschitz9 {e' M' e : ℝ} (h0 : 0 ≤ e) (h1 : e ≤ 1987 / 2000) (x y : ℝ) :
    |(M' + e' * Real.sin x) / (1 - e * Real.cos x) - (M' + e' * Real.sin y) / (1 - e * Real.cos y)|
      ≤ 10 * (|M'| + |e'|) / (1 - e) * |x - y| := by
  have hf : ∀ s, 1 - e ≤ 1 - e * Real.cos s := fun s => by have := dE_ge h0 s; rwa [dE_eq] at this
  have hd : ∀ s, HasDerivAt (fun s => (M' + e' * Real.sin s) / (1 - e * Real.cos s))
      ((e' * Real.cos s * (1 - e * Real.cos s) - (M' + e' * Real.sin s) * (e * Real.sin s)) / (1 - e * Real.cos s) ^ 2) s :=
    fun s => by
    have a := ((Real.hasDerivAt_sin s).const_mul e').const_add M'
    have b := ((Real.hasDerivAt_cos s).const_mul e).const_sub 1
    refine (a.fun_div b (by have := hf s; linarith)).congr_deriv ?_
    ring
  have hb : ∀ s, ‖(e' * Real.cos s * (1 - e * Real.cos s) - (M' + e' * Real.sin s) * (e * Real.sin s))
      / (1 - e * Real.cos s) ^ 2‖ ≤ 10 * (|M'| + |e'|) / (1 - e) := fun s => by
    have hp : 0 < 1 - e * Real.cos s := by have := hf s; linarith
    have hp1 : 0 < 1 - e := by linarith
    have hn : |M' + e' * Real.sin s| ≤ |M'| + |e'| := by
      refine (abs_add_le _ _).trans ?_
      rw [abs_mul]
      nlinarith [Real.abs_sin_le_one s, abs_nonneg e']
    have hc : |e' * Real.cos s| ≤ |M'| + |e'| := by
      rw [abs_mul]
      nlinarith [Real.abs_cos_le_one s, abs_nonneg e', abs_nonneg M']
    have hS : 0 ≤ |M'| + |e'| := by positivity
    have hnum : |e' * Real.cos s * (1 - e * Real.cos s) - (M' + e' * Real.sin s) * (e * Real.sin s)|
        ≤ 10 * (|M'| + |e'|) * (1 - e * Real.cos s) := by
      refine (abs_sub _ _).trans ?_
      rw [abs_mul, abs_mul (M' + _), abs_of_pos hp]
      have a := mul_le_mul_of_nonneg_right hc hp.le
      have b := mul_le_mul hn (sin_div_dE (s := s) h0 h1) (abs_nonneg _) hS
      linarith
    rw [Real.norm_eq_abs, abs_div, abs_of_pos (by positivity : 0 < (1 - e * Real.cos s) ^ 2),
      div_le_div_iff₀ (by positivity) hp1]
    have h2 := mul_le_mul_of_nonneg_right hnum hp1.le
    have h3 : 10 * (|M'| + |e'|) * (1 - e * Real.cos s) * (1 - e)
        ≤ 10 * (|M'| + |e'|) * (1 - e * Real.cos s) * (1 - e * Real.cos s) :=
      mul_le_mul_of_nonneg_left (hf s) (by positivity)
    nlinarith
  have := convex_univ.norm_image_sub_le_of_norm_hasDerivWithin_le (fun s _ => (hd s).hasDerivWithinAt)
    (fun s _ => hb s) (mem_univ y) (mem_univ x)
  simpa [Real.norm_eq_abs] using this

section
variable {M e : ℝ → ℝ} {s : ℝ} {M' e' : Dual ℝ}

/-- The tangent of the starting value. -/
theorem elpsStart_tangent_le (hM : Tracks M s M') (he : Tracks e s e') (he0 : 0 ≤ e s) (he1 : e s ≤ 1) :
    |Dual.dot (elpsStart M' e')| ≤ 3 * (|Dual.dot M'| + |Dual.dot e'|) := by
  have a0 := abs_nonneg (Dual.dot M')
  have b0 := abs_nonneg (Dual.dot e')
  have h := (tracks_elpsStart hM he).deriv
  have hd : HasDerivAt (fun x => M x + e x * Real.sin (M x) + e x ^ 2 * Real.sin (2 * M x) / 2)
      (Dual.dot M' + (Dual.dot e' * Real.sin (M s) + e s * (Real.cos (M s) * Dual.dot M'))
        + ((2 * e s ^ 1 * Dual.dot e') * Real.sin (2 * M s)
          + e s ^ 2 * (Real.cos (2 * M s) * (2 * Dual.dot M'))) / 2) s := by
    have hm := hM.deriv
    have hee := he.deriv
    simpa using (hm.fun_add (hee.fun_mul hm.sin)).fun_add (((hee.fun_pow 2).fun_mul (hm.const_mul 2).sin).div_const 2)
  have hu := h.unique (hd.congr_of_eventuallyEq (.of_eq (by
    funext x; simp only [elpsStart, sin_real]; norm_num)))
  rw [hu]
  have s1 := Real.abs_sin_le_one (M s)
  have c1 := Real.abs_cos_le_one (M s)
  have s2 := Real.abs_sin_le_one (2 * M s)
  have c2 := Real.abs_cos_le_one (2 * M s)
  have e1 : |Dual.dot e' * Real.sin (M s)| ≤ |Dual.dot e'| := by
    rw [abs_mul]; exact mul_le_of_le_one_right b0 s1
  have e2 : |Real.cos (M s) * Dual.dot M'| ≤ |Dual.dot M'| := by
    rw [abs_mul]; exact mul_le_of_le_one_left a0 c1
  have e3 : |Dual.dot e' * Real.sin (2 * M s)| ≤ |Dual.dot e'| := by
    rw [abs_mul]; exact mul_le_of_le_one_right b0 s2
  have e4 : |Real.cos (2 * M s) * Dual.dot M'| ≤ |Dual.dot M'| := by
    rw [abs_mul]; exact mul_le_of_le_one_left a0 c2
  have hid : Dual.dot M' + (Dual.dot e' * Real.sin (M s) + e s * (Real.cos (M s) * Dual.dot M'))
        + ((2 * e s ^ 1 * Dual.dot e') * Real.sin (2 * M s)
          + e s ^ 2 * (Real.cos (2 * M s) * (2 * Dual.dot M'))) / 2
      = (Dual.dot M' + Dual.dot e' * Real.sin (M s)) + (e s * (Real.cos (M s) * Dual.dot M')
        + e s * (Dual.dot e' * Real.sin (2 * M s))) + e s ^ 2 * (Real.cos (2 * M s) * Dual.dot M') := by ring
  rw [hid]
  have t1 := abs_add_three (Dual.dot M' + Dual.dot e' * Real.sin (M s)) (e s * (Real.cos (M s) * Dual.dot M')
        + e s * (Dual.dot e' * Real.sin (2 * M s))) (e s ^ 2 * (Real.cos (2 * M s) * Dual.dot M'))
  have t2 := abs_add_le (Dual.dot M') (Dual.dot e' * Real.sin (M s))
  have t3 := abs_add_le (e s * (Real.cos (M s) * Dual.dot M')) (e s * (Dual.dot e' * Real.sin (2 * M s)))
  rw [abs_mul, abs_mul (e s) (Dual.dot e' * _), abs_of_nonneg he0] at t3
  rw [abs_mul (e s ^ 2), abs_of_nonneg (by positivity : 0 ≤ e s ^ 2)] at t1
  have m1 : e s * |Real.cos (M s) * Dual.dot M'| ≤ 1 * |Dual.dot M'| := by gcongr
  have m2 : e s * |Dual.dot e' * Real.sin (2 * M s)| ≤ 1 * |Dual.dot e'| := by gcongr
  have m3 : e s ^ 2 * |Real.cos (2 * M s) * Dual.dot M'| ≤ 1 * |Dual.dot M'| := by gcongr; nlinarith
  linarith

/-- One step: `Q` bounds the amplification, `σ` the step. -/
theorem newton_tangent_grow {E : ℝ → ℝ} {E' : Dual ℝ} {Q σ : ℝ} (hM : Tracks M s M') (he : Tracks e s e')
    (hE : Tracks E s E') (he0 : 0 ≤ e s) (he1 : e s < 1)
    (hQ : |E s - newtonElps (M s) (e s) (E s)| * |e s * Real.sin (E s)| ≤ Q * (1 - e s * Real.cos (E s)))
    (hσ : |E s - newtonElps (M s) (e s) (E s)| ≤ σ) :
    |Dual.dot (newtonElps M' e' E') - (Dual.dot M' + Dual.dot e' * Real.sin (E s)) / (1 - e s * Real.cos (E s))|
      ≤ Q * |Dual.dot E'| + σ * |Dual.dot e'| / (1 - e s) := by
  have hf : 1 - e s ≤ 1 - e s * Real.cos (E s) := by have := dE_ge he0 (E s); rwa [dE_eq] at this
  have hp1 : 0 < 1 - e s := by linarith
  have hp : 0 < 1 - e s * Real.cos (E s) := by linarith
  rw [newton_tangent hM he hE hp.ne', add_sub_cancel_left, abs_div, abs_of_pos hp, mul_sub]
  set d := E s - newtonElps (M s) (e s) (E s)
  have h1 : |d * (e s * Real.sin (E s) * Dual.dot E')| ≤ Q * (1 - e s * Real.cos (E s)) * |Dual.dot E'| := by
    rw [← mul_assoc, abs_mul, abs_mul]
    exact mul_le_mul_of_nonneg_right hQ (abs_nonneg _)
  have h2 : |d * (Real.cos (E s) * Dual.dot e')| ≤ σ * |Dual.dot e'| := by
    rw [abs_mul, abs_mul]
    refine mul_le_mul hσ (mul_le_of_le_one_left (abs_nonneg _) (Real.abs_cos_le_one _)) (by positivity)
      ((abs_nonneg _).trans hσ)
  have h3 : σ * |Dual.dot e'| / (1 - e s * Real.cos (E s)) ≤ σ * |Dual.dot e'| / (1 - e s) := by
    have : 0 ≤ σ := (abs_nonneg _).trans hσ
    gcongr
  calc _ ≤ (Q * (1 - e s * Real.cos (E s)) * |Dual.dot E'| + σ * |Dual.dot e'|) / (1 - e s * Real.cos (E s)) := by
        gcongr
        exact (abs_sub _ _).trans (add_le_add h1 h2)
    _ = Q * |Dual.dot E'| + σ * |Dual.dot e'| / (1 - e s * Real.cos (E s)) := by field_simp
    _ ≤ _ := by linarith

/-- The tangents of the iterates. -/
theorem elps_tangent_le9 {r : ℝ} (hM : Tracks M s M') (he : Tracks e s e') (he0 : 0 ≤ e s) (he1 : e s ≤ 1987 / 2000)
    (hroot : kepler_equ_elps r (e s) (M s) = 0) (k : ℕ) :
    |Dual.dot ((newtonElps M' e')^[k] (elpsStart M' e'))|
      ≤ (86 + k * (21 / 5) / (1 - e s)) * (|Dual.dot M'| + |Dual.dot e'|) := by
  have orb := elpsOrbit he0 he1 hroot
  have a0 := abs_nonneg (Dual.dot M')
  have b0 := abs_nonneg (Dual.dot e')
  have hpi := Real.pi_lt_d2
  have hp1 : 0 < 1 - e s := by linarith
  have hG : ∀ x, |(Dual.dot M' + Dual.dot e' * Real.sin x) / (1 - e s * Real.cos x)|
      ≤ (|Dual.dot M'| + |Dual.dot e'|) / (1 - e s) := fun x => by
    have hf : 1 - e s ≤ 1 - e s * Real.cos x := by have := dE_ge he0 x; rwa [dE_eq] at this
    rw [abs_div, abs_of_pos (by linarith : 0 < 1 - e s * Real.cos x)]
    have : |Dual.dot M' + Dual.dot e' * Real.sin x| ≤ |Dual.dot M'| + |Dual.dot e'| := by
      refine (abs_add_le _ _).trans ?_
      rw [abs_mul]; nlinarith [Real.abs_sin_le_one x]
    gcongr
  -- one step
  have hone : ∀ k Q, |(newtonElps (M s) (e s))^[k] (elpsStart (M s) (e s))
        - (newtonElps (M s) (e s))^[k + 1] (elpsStart (M s) (e s))|
        * |e s * Real.sin ((newtonElps (M s) (e s))^[k] (elpsStart (M s) (e s)))|
        ≤ Q * (1 - e s * Real.cos ((newtonElps (M s) (e s))^[k] (elpsStart (M s) (e s)))) →
      |Dual.dot ((newtonElps M' e')^[k + 1] (elpsStart M' e'))|
        ≤ Q * |Dual.dot ((newtonElps M' e')^[k] (elpsStart M' e'))|
          + 21 / 5 / (1 - e s) * (|Dual.dot M'| + |Dual.dot e'|) := by
    intro k Q hQ
    have hst := orb.step k
    rw [Function.iterate_succ_apply'] at hQ hst ⊢
    have h := newton_tangent_grow hM he (C63_elps_iterate hM he he0 (by linarith) k) he0 (by linarith) hQ hst
    have h2 := hG ((newtonElps (M s) (e s))^[k] (elpsStart (M s) (e s)))
    have h3 := abs_sub_abs_le_abs_sub (Dual.dot (newtonElps M' e' ((newtonElps M' e')^[k] (elpsStart M' e'))))
      ((Dual.dot M' + Dual.dot e' * Real.sin ((newtonElps (M s) (e s))^[k] (elpsStart (M s) (e s))))
        / (1 - e s * Real.cos ((newtonElps (M s) (e s))^[k] (elpsStart (M s) (e s)))))
    have h4 : (|Dual.dot M'| + |Dual.dot e'|) / (1 - e s) + Real.pi * |Dual.dot e'| / (1 - e s)
        ≤ 21 / 5 / (1 - e s) * (|Dual.dot M'| + |Dual.dot e'|) := by
      rw [← add_div, div_mul_eq_mul_div]
      gcongr
      nlinarith
    linarith
  induction k with
  | zero =>
    have := elpsStart_tangent_le hM he he0 (by linarith)
    simp only [Function.iterate_zero, id, Nat.cast_zero, zero_mul, zero_div, add_zero]
    linarith
  | succ k ih =>
    have hcast : ((k + 1 : ℕ) : ℝ) * (21 / 5) / (1 - e s) = k * (21 / 5) / (1 - e s) + 21 / 5 / (1 - e s) := by
      push_cast; ring
    rw [hcast]
    rcases Nat.eq_zero_or_pos k with rfl | hk
    · have h0 := elpsStart_tangent_le hM he he0 (by linarith)
      have := hone 0 (9 * Real.pi) (by
        have h1 := sin_div_dE (s := (newtonElps (M s) (e s))^[0] (elpsStart (M s) (e s))) he0 he1
        have h2 := orb.step 0
        have h3 := mul_le_mul h2 h1 (abs_nonneg _) Real.pi_pos.le
        linarith)
      simp only [Function.iterate_zero, id] at this
      have h5 : 9 * Real.pi * |Dual.dot (elpsStart M' e')| ≤ 9 * 3.15 * (3 * (|Dual.dot M'| + |Dual.dot e'|)) := by
        gcongr
      norm_num at h5
      simp only [Nat.cast_zero, zero_mul, zero_div]
      have h6 : (0 : ℝ) ≤ |Dual.dot M'| + |Dual.dot e'| := by positivity
      linarith
    · have := hone k 1 (by rw [one_mul]; exact orb.damp k hk)
      linarith

/-- C63: with the default tolerance and iteration limit and `e ≤ 0.9935`, for every mean anomaly and all curves of
arguments, forward mode returns the derivative of the eccentric anomaly up to `1.4e-3/(1 - e)` times the size of the
tangents that went in; the derivative itself is of the order `1/(1 - e)` near periapsis. -/
theorem C63_elps_default_9935_partial {Es : ℝ → ℝ} (hM : Tracks M s M') (he : Tracks e s e') (he0 : 0 ≤ e s)
    (he1 : e s ≤ 1987 / 2000) (hroot : ∀ᶠ x in nhds s, kepler_equ_elps (Es x) (e x) (M x) = 0) :
    ∃ d D, solve_kepler_elps M' e' = some d ∧ HasDerivAt Es D s ∧
      |Dual.dot d - D| ≤ 14 / 10 ^ 4 * (|Dual.dot M'| + |Dual.dot e'|) / (1 - e s) := by
  have hlt : e s < 1 := by linarith
  have hp1 : 0 < 1 - e s := by linarith
  have hroots := hroot.self_of_nhds
  have orb := elpsOrbit he0 he1 hroots
  have htol : (defaultTol : ℝ) = 1 / 10 ^ 6 := by simp only [defaultTol]; norm_num
  obtain ⟨k, hk, hd, -, h1, h2⟩ := elps_dual hM he he0 hlt defaultTol 20
  have hk16 : k ≤ 16 := by
    by_contra hcon
    have := h1 16 (by omega)
    have h16 := orb.small
    rw [abs_sub_comm, ← htol] at h16
    exact absurd this (not_lt.2 h16)
  have h2 := h2 (by omega)
  rcases k with _ | j
  · exfalso
    simp only [Function.iterate_zero, id_eq, prevOf] at h2
    rw [sub_add_cancel_left, abs_neg, htol] at h2
    norm_num at h2
  simp only [prevOf] at h2
  rw [abs_sub_comm, htol] at h2
  refine ⟨_, _, hd, elps_root_deriv hM he he0 hlt hroot, ?_⟩
  have hn := orb.near j
  have hT := elps_tangent_le9 hM he he0 he1 hroots j
  rw [Function.iterate_succ_apply'] at h2 hn ⊢
  have hg := newton_tangent_grow (Q := 9 / 10 ^ 6) hM he (C63_elps_iterate hM he he0 hlt j) he0 hlt (by
    have h3 := mul_le_mul h2 (sin_div_dE (s := (newtonElps (M s) (e s))^[j] (elpsStart (M s) (e s))) he0 he1)
      (abs_nonneg _) (by norm_num)
    linarith) h2
  have hL := rootDeriv_lipschitz9 (M' := Dual.dot M') (e' := Dual.dot e') he0 he1
    ((newtonElps (M s) (e s))^[j] (elpsStart (M s) (e s))) (Es s)
  have hj : (j : ℝ) ≤ 15 := by exact_mod_cast (by omega : j ≤ 15)
  set S := |Dual.dot M'| + |Dual.dot e'| with hS
  have hS0 : 0 ≤ S := by positivity
  have hb : |Dual.dot e'| ≤ S := by rw [hS]; linarith [abs_nonneg (Dual.dot M')]
  refine (abs_sub_le _ _ _).trans ((add_le_add hg hL).trans ?_)
  have a1 : 9 / 10 ^ 6 * |Dual.dot ((newtonElps M' e')^[j] (elpsStart M' e'))|
      ≤ 9 / 10 ^ 6 * ((86 + 15 * (21 / 5) / (1 - e s)) * S) := by
    refine mul_le_mul_of_nonneg_left (hT.trans ?_) (by norm_num)
    gcongr
  have a2 : 1 / 10 ^ 6 * |Dual.dot e'| / (1 - e s) ≤ 1 / 10 ^ 6 * S / (1 - e s) := by gcongr
  have a3 : 10 * S / (1 - e s) * |(newtonElps (M s) (e s))^[j] (elpsStart (M s) (e s)) - Es s|
      ≤ 10 * S / (1 - e s) * (3 * (1 / 10 ^ 6)) := by
    refine mul_le_mul_of_nonneg_left (hn.trans ?_) (by positivity)
    linarith
  have a4 : 86 * S ≤ 86 * S / (1 - e s) := by
    rw [le_div_iff₀ hp1]
    have : 86 * S * (1 - e s) ≤ 86 * S * 1 := mul_le_mul_of_nonneg_left (by linarith) (by positivity)
    linarith
  have a5 : 0 ≤ S / (1 - e s) := by positivity
  have b1 : (86 + 15 * (21 / 5) / (1 - e s)) * S = 86 * S + 63 * (S / (1 - e s)) := by ring
  rw [b1] at a1
  simp only [mul_div_assoc] at a2 a3 a4 ⊢
  linarith

/-- A case meeting the hypotheses: `e = 0.99`, differentiated with respect to the mean anomaly at any `M`. The
derivative reaches 100 at periapsis. -/
example (M : ℝ) : ∃ Es : ℝ → ℝ, (∀ x, kepler_equ_elps (Es x) (99 / 100) x = 0) ∧
    ∃ d D, solve_kepler_elps (⟨M, some 1⟩ : Dual ℝ) (cst (99 / 100)) = some d ∧ HasDerivAt Es D M ∧
      |Dual.dot d - D| ≤ 14 / 100 := by
  have h : ∀ x : ℝ, ∃ E : ℝ, kepler_equ_elps E (99 / 100) x = 0 := fun x =>
    (existsUnique_root (show (0 : ℝ) < 1 - 99 / 100 by norm_num) (fun E => hasDerivAt_elps E (99 / 100) x)
      (fun E => dE_ge (by norm_num) E) 0).exists
  choose Es hEs using h
  obtain ⟨d, D, h1, h2, h3⟩ := C63_elps_default_9935_partial (Es := Es) (Tracks.var M) (Tracks.const (99 / 100)) (by norm_num)
    (by norm_num) (.of_forall hEs)
  exact ⟨Es, hEs, d, D, h1, h2, h3.trans (by norm_num [Dual.dot])⟩

end

end Adx
