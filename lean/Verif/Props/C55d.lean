import Verif.Props.C55c

/-! # C55, continued: above eccentricity 0.802 every orbit has states from which the root search cycles -/

namespace Adx
open Set Spec

/-- The cosine of the auxiliary angle of the cycle: `4π / (e (4π + 3√3))`. -/
noncomputable def cycC (e : ℝ) : ℝ := 4 * Real.pi / (e * (4 * Real.pi + 3 * Real.sqrt 3))

/-- The two points of the cycle, `4π/3` apart, and the mean anomaly for which they form one. -/
noncomputable def cycX (e : ℝ) : ℝ := Real.pi / 3 - Real.arccos (cycC e)
noncomputable def cycY (e : ℝ) : ℝ := cycX e + 4 * Real.pi / 3
noncomputable def cycM (e : ℝ) : ℝ :=
  cycX e - e * Real.sin (cycX e) + 4 * Real.pi / 3 * (1 - e * Real.cos (cycX e))

theorem sqrt3_bounds : 1.732 < Real.sqrt 3 ∧ Real.sqrt 3 < 1.7321 :=
  ⟨Real.lt_sqrt_of_sq_lt (by norm_num), by rw [Real.sqrt_lt' (by norm_num)]; norm_num⟩

section
variable {e : ℝ} (he : 41 / 50 ≤ e) (he1 : e < 1)
include he he1

theorem cycC_bounds : 7 / 10 ≤ cycC e ∧ cycC e ≤ 863 / 1000 := by
  have hp := Real.pi_gt_d4
  have hp' := Real.pi_lt_d4
  obtain ⟨hq, hq'⟩ := sqrt3_bounds
  have hpos : 0 < e * (4 * Real.pi + 3 * Real.sqrt 3) := mul_pos (by linarith) (by linarith)
  constructor
  · rw [cycC, le_div_iff₀ hpos]
    have : e * (4 * Real.pi + 3 * Real.sqrt 3) ≤ 1 * (4 * Real.pi + 3 * Real.sqrt 3) :=
      mul_le_mul_of_nonneg_right he1.le (by linarith)
    linarith
  · rw [cycC, div_le_iff₀ hpos]
    have : 41 / 50 * (4 * Real.pi + 3 * Real.sqrt 3) ≤ e * (4 * Real.pi + 3 * Real.sqrt 3) :=
      mul_le_mul_of_nonneg_right he (by linarith)
    linarith

theorem cycC_eq : e * cycC e * (4 * Real.pi + 3 * Real.sqrt 3) = 4 * Real.pi := by
  have hp := Real.pi_pos
  have hq := Real.sqrt_nonneg 3
  have h1 : e ≠ 0 := by linarith
  have h2 : 4 * Real.pi + 3 * Real.sqrt 3 ≠ 0 := by positivity
  rw [cycC]; field_simp

theorem cyc_trig : ∃ s, 0 ≤ s ∧ s ^ 2 = 1 - cycC e ^ 2 ∧
    Real.cos (cycX e) = cycC e / 2 + Real.sqrt 3 / 2 * s ∧ Real.sin (cycX e) = Real.sqrt 3 / 2 * cycC e - s / 2 ∧
    Real.cos (cycY e) = cycC e / 2 - Real.sqrt 3 / 2 * s ∧ Real.sin (cycY e) = -(Real.sqrt 3 / 2 * cycC e) - s / 2 := by
  obtain ⟨h1, h2⟩ := cycC_bounds he he1
  have hc : Real.cos (Real.arccos (cycC e)) = cycC e := Real.cos_arccos (by linarith) (by linarith)
  refine ⟨Real.sin (Real.arccos (cycC e)), ?_, ?_, ?_, ?_, ?_, ?_⟩
  · exact Real.sin_nonneg_of_nonneg_of_le_pi (Real.arccos_nonneg _) (Real.arccos_le_pi _)
  · have := Real.sin_sq_add_cos_sq (Real.arccos (cycC e))
    rw [hc] at this; linarith
  · rw [cycX, Real.cos_sub, hc, Real.cos_pi_div_three, Real.sin_pi_div_three]; ring
  · rw [cycX, Real.sin_sub, hc, Real.cos_pi_div_three, Real.sin_pi_div_three]; ring
  · rw [cycY, cycX, show Real.pi / 3 - Real.arccos (cycC e) + 4 * Real.pi / 3
      = 2 * Real.pi - (Real.pi / 3 + Real.arccos (cycC e)) by ring, Real.cos_two_pi_sub, Real.cos_add, hc,
      Real.cos_pi_div_three, Real.sin_pi_div_three]; ring
  · rw [cycY, cycX, show Real.pi / 3 - Real.arccos (cycC e) + 4 * Real.pi / 3
      = 2 * Real.pi - (Real.pi / 3 + Real.arccos (cycC e)) by ring, Real.sin_two_pi_sub, Real.sin_add, hc,
      Real.cos_pi_div_three, Real.sin_pi_div_three]; ring

/-- The residuals at the two points. -/
theorem cyc_residual :
    kepler_equ_elps (cycX e) e (cycM e) = -(4 * Real.pi / 3) * dE (cycX e) e ∧
    kepler_equ_elps (cycY e) e (cycM e) = 4 * Real.pi / 3 * dE (cycY e) e ∧
    1 / 33 ≤ dE (cycX e) e ∧ 1 / 33 ≤ dE (cycY e) e := by
  obtain ⟨h1, h2⟩ := cycC_bounds he he1
  obtain ⟨s, hs0, hs, hcx, hsx, hcy, hsy⟩ := cyc_trig he he1
  have hE := cycC_eq he he1
  obtain ⟨hq, hq'⟩ := sqrt3_bounds
  have hq2 : Real.sqrt 3 ^ 2 = 3 := Real.sq_sqrt (by norm_num)
  refine ⟨?_, ?_, ?_, ?_⟩
  · rw [kep_elps_eq, dE_eq, cycM]; ring
  · rw [kep_elps_eq, dE_eq, cycM, show Real.sin (cycY e) = -(Real.sqrt 3 / 2 * cycC e) - s / 2 from hsy, hcx, hsx, hcy,
      cycY]
    linear_combination (1 / 3 : ℝ) * hE
  · rw [dE_eq, hcx]
    have hA : Real.sqrt 3 / 2 * s ≤ 969 / 1000 - cycC e / 2 := by
      refine abs_le_of_sq_le_sq (a := Real.sqrt 3 / 2 * s) ?_ (by linarith) |> le_trans (le_abs_self _)
      rw [mul_pow, div_pow, hq2, hs]
      nlinarith
    have hB : 0 ≤ cycC e / 2 + Real.sqrt 3 / 2 * s := by positivity
    nlinarith
  · rw [dE_eq, hcy]
    have hB : 0 ≤ Real.sqrt 3 / 2 * s := by positivity
    nlinarith

/-- Newton's method exchanges them. -/
theorem cyc_newton : newtonElps (cycM e) e (cycX e) = cycY e ∧ newtonElps (cycM e) e (cycY e) = cycX e := by
  obtain ⟨h1, h2, h3, h4⟩ := cyc_residual he he1
  constructor
  · rw [newtonElps, h1, mul_div_assoc, div_self (by linarith), cycY]; ring
  · rw [newtonElps, h2, mul_div_assoc, div_self (by linarith), cycY]; ring

/-- The first of them is a start the root search really uses. -/
theorem cyc_start : ∃ E0, cycM e + e * Real.sin E0 = cycX e := by
  obtain ⟨h1, h2⟩ := cycC_bounds he he1
  obtain ⟨s, hs0, hs, hcx, hsx, -, -⟩ := cyc_trig he he1
  have hE := cycC_eq he he1
  obtain ⟨hq, hq'⟩ := sqrt3_bounds
  have hp := Real.pi_gt_d4
  have hp' := Real.pi_lt_d4
  have he0 : 0 < e := by linarith
  have hslow : 505 / 1000 ≤ s := by nlinarith
  have hlow : -1 ≤ (cycX e - cycM e) / e := by
    rw [le_div_iff₀ he0, cycM, hcx, hsx]
    -- `4π/3 ≤ e (1 + sin x + 4π/3 cos x)`
    have hkey : cycC e * (Real.sqrt 3 / 2 + 2 * Real.pi / 3) ≤ 1 + s * (2 * Real.pi / 3 * Real.sqrt 3 - 1 / 2) := by
      have hA : cycC e * (Real.sqrt 3 / 2 + 2 * Real.pi / 3) ≤ 863 / 1000 * (1.7321 / 2 + 2 * 3.1416 / 3) :=
        mul_le_mul h2 (by linarith) (by linarith) (by norm_num)
      have hB : 3.627 ≤ 2 * Real.pi / 3 * Real.sqrt 3 := by nlinarith
      have hC : 505 / 1000 * (3.627 - 1 / 2) ≤ s * (2 * Real.pi / 3 * Real.sqrt 3 - 1 / 2) :=
        mul_le_mul hslow (by linarith) (by norm_num) hs0
      norm_num at hA hC ⊢
      linarith
    have := mul_le_mul_of_nonneg_left hkey he0.le
    nlinarith
  have hhigh : (cycX e - cycM e) / e ≤ 1 := by
    rw [div_le_iff₀ he0, cycM]
    have h3 := Real.sin_le_one (cycX e)
    have h4 : 0 ≤ 4 * Real.pi / 3 * (1 - e * Real.cos (cycX e)) :=
      mul_nonneg (by positivity) (by nlinarith [Real.cos_le_one (cycX e)])
    nlinarith
  refine ⟨Real.arcsin ((cycX e - cycM e) / e), ?_⟩
  rw [Real.sin_arcsin hlow hhigh]
  field_simp
  ring

/-- All iterates. -/
theorem cyc_iterate (k : ℕ) : (newtonElps (cycM e) e)^[k] (cycX e) = cycX e ∨
    (newtonElps (cycM e) e)^[k] (cycX e) = cycY e := by
  obtain ⟨h1, h2⟩ := cyc_newton he he1
  induction k with
  | zero => exact Or.inl rfl
  | succ k ih =>
    rw [Function.iterate_succ_apply']
    rcases ih with h | h
    · rw [h, h1]; exact Or.inr rfl
    · rw [h, h2]; exact Or.inl rfl

theorem cyc_bad (k : ℕ) : 1 / 10 ≤ |kepler_equ_elps ((newtonElps (cycM e) e)^[k] (cycX e)) e (cycM e)| := by
  obtain ⟨h1, h2, h3, h4⟩ := cyc_residual he he1
  have hp := Real.pi_gt_d2
  rcases cyc_iterate he he1 k with h | h
  · rw [h, h1, abs_mul, abs_neg, abs_of_pos (by positivity), abs_of_pos (by linarith)]
    nlinarith
  · rw [h, h2, abs_mul, abs_of_pos (by positivity), abs_of_pos (by linarith)]
    nlinarith

end

/-! ## Eccentricities from 0.802 to 0.82: two points `7π/5` apart -/

/-- Sine and cosine of `3π/10`. -/
theorem trig_three_tenths : 0.80901 < Real.sin (3 * Real.pi / 10) ∧ Real.sin (3 * Real.pi / 10) < 0.80902 ∧
    0.58778 < Real.cos (3 * Real.pi / 10) ∧ Real.cos (3 * Real.pi / 10) < 0.5878 := by
  have hs : Real.sin (3 * Real.pi / 10) = (1 + Real.sqrt 5) / 4 := by
    rw [← Real.cos_pi_div_five, ← Real.cos_pi_div_two_sub]; congr 1; ring
  have h5 : 2.23606 < Real.sqrt 5 := Real.lt_sqrt_of_sq_lt (by norm_num)
  have h5' : Real.sqrt 5 < 2.23607 := by rw [Real.sqrt_lt' (by norm_num)]; norm_num
  have hs1 : 0.809015 ≤ Real.sin (3 * Real.pi / 10) := by rw [hs]; linarith
  have hs2 : Real.sin (3 * Real.pi / 10) ≤ 0.8090175 := by rw [hs]; linarith
  have hp := Real.pi_pos
  have hk0 : 0 ≤ Real.cos (3 * Real.pi / 10) := Real.cos_nonneg_of_mem_Icc ⟨by linarith, by linarith⟩
  have hsq := Real.sin_sq_add_cos_sq (3 * Real.pi / 10)
  generalize Real.sin (3 * Real.pi / 10) = S at *
  generalize Real.cos (3 * Real.pi / 10) = K at *
  have hS2 : S ^ 2 ≤ 0.8090175 ^ 2 := pow_le_pow_left₀ (by linarith) hs2 2
  have hS2' : 0.809015 ^ 2 ≤ S ^ 2 := pow_le_pow_left₀ (by norm_num) hs1 2
  norm_num at hS2 hS2' hs1 hs2
  refine ⟨by linarith, by linarith, ?_, ?_⟩
  · refine lt_of_pow_lt_pow_left₀ 2 hk0 ?_
    norm_num; linarith
  · refine lt_of_pow_lt_pow_left₀ 2 (by norm_num) ?_
    norm_num; linarith

/-- The angle of the cycle in this range: its cosine `c` and sine `s`. -/
theorem cyc_low_angle {e : ℝ} (he : 401 / 500 ≤ e) {S K : ℝ} (hSd : S = Real.sin (3 * Real.pi / 10))
    (hKd : K = Real.cos (3 * Real.pi / 10)) : ∃ c, 0 ≤ c ∧ c ≤ 0.808 ∧
      e * c * (S + 7 * Real.pi / 5 * K) = 7 * Real.pi / 10 ∧ ∀ s, 0 ≤ s → s ^ 2 + c ^ 2 = 1 →
        7 * Real.pi / 10 ≤ e * (1 + s * (7 * Real.pi / 5 * S - K)) := by
  have hp := Real.pi_gt_d4
  have hp' := Real.pi_lt_d4
  have he0 : 0 < e := by linarith
  obtain ⟨hS, hS', hK, hK'⟩ := trig_three_tenths
  rw [← hSd] at hS hS'
  rw [← hKd] at hK hK'
  have hD : 3.3941 ≤ S + 7 * Real.pi / 5 * K := by
    have : 4.3981 * 0.58778 ≤ 7 * Real.pi / 5 * K := mul_le_mul (by linarith) hK.le (by norm_num) (by linarith)
    norm_num at this hS ⊢
    linarith
  obtain ⟨c, hc⟩ : ∃ c, c = 7 * Real.pi / 10 / (e * (S + 7 * Real.pi / 5 * K)) := ⟨_, rfl⟩
  have hcpos : 0 ≤ c := by
    rw [hc]; exact div_nonneg (by linarith) (mul_nonneg he0.le (by linarith))
  have hE : e * c * (S + 7 * Real.pi / 5 * K) = 7 * Real.pi / 10 := by
    have h2 : S + 7 * Real.pi / 5 * K ≠ 0 := by linarith
    rw [hc]; field_simp
  have hc1 : c ≤ 0.808 := by
    rw [hc, div_le_iff₀ (mul_pos he0 (by linarith))]
    have : 401 / 500 * 3.3941 ≤ e * (S + 7 * Real.pi / 5 * K) := mul_le_mul he hD (by norm_num) he0.le
    norm_num at this ⊢
    linarith
  refine ⟨c, hcpos, hc1, hE, fun s hs0 hs2 => ?_⟩
  have hslow : 0.589 ≤ s := by
    refine le_of_pow_le_pow_left₀ two_ne_zero hs0 ?_
    have : c ^ 2 ≤ 0.808 ^ 2 := pow_le_pow_left₀ hcpos hc1 2
    norm_num at this ⊢
    linarith
  have hB : 2.97 ≤ 7 * Real.pi / 5 * S - K := by
    have : 4.3981 * 0.80901 ≤ 7 * Real.pi / 5 * S := mul_le_mul (by linarith) hS.le (by norm_num) (by linarith)
    norm_num at this hK' ⊢
    linarith
  have hC : 0.589 * 2.97 ≤ s * (7 * Real.pi / 5 * S - K) := mul_le_mul hslow hB (by norm_num) hs0
  have hF : 401 / 500 * (1 + 0.589 * 2.97) ≤ e * (1 + s * (7 * Real.pi / 5 * S - K)) :=
    mul_le_mul he (by linarith) (by norm_num) he0.le
  norm_num at hF
  linarith

/-- In this range, too, there are a mean anomaly and a start from which every iterate is bad. -/
theorem cyc_low {e : ℝ} (he : 401 / 500 ≤ e) (he1 : e ≤ 41 / 50) : ∃ M E0 : ℝ, ∀ k : ℕ,
    1 / 10 ≤ |kepler_equ_elps ((newtonElps M e)^[k] (M + e * Real.sin E0)) e M| := by
  have hp := Real.pi_gt_d4
  have he0 : 0 < e := by linarith
  obtain ⟨S, hSd⟩ : ∃ S, S = Real.sin (3 * Real.pi / 10) := ⟨_, rfl⟩
  obtain ⟨K, hKd⟩ : ∃ K, K = Real.cos (3 * Real.pi / 10) := ⟨_, rfl⟩
  obtain ⟨c, hcpos, hc1, hE, hkey⟩ := cyc_low_angle he hSd hKd
  have hcos : Real.cos (Real.arccos c) = c := Real.cos_arccos (by linarith) (by linarith)
  obtain ⟨s, hs⟩ : ∃ s, s = Real.sin (Real.arccos c) := ⟨_, rfl⟩
  have hs0 : 0 ≤ s := by
    rw [hs]; exact Real.sin_nonneg_of_nonneg_of_le_pi (Real.arccos_nonneg _) (Real.arccos_le_pi _)
  have hs2 : s ^ 2 + c ^ 2 = 1 := by
    have := Real.sin_sq_add_cos_sq (Real.arccos c)
    rwa [hcos, ← hs] at this
  replace hkey := hkey s hs0 hs2
  -- the two points
  obtain ⟨x, hx⟩ : ∃ x, x = 3 * Real.pi / 10 - Real.arccos c := ⟨_, rfl⟩
  obtain ⟨y, hy⟩ : ∃ y, y = x + 7 * Real.pi / 5 := ⟨_, rfl⟩
  have hcx : Real.cos x = K * c + S * s := by rw [hx, Real.cos_sub, hcos, ← hs, ← hSd, ← hKd]
  have hsx : Real.sin x = S * c - K * s := by rw [hx, Real.sin_sub, hcos, ← hs, ← hSd, ← hKd]
  have hy2 : y = 2 * Real.pi - (3 * Real.pi / 10 + Real.arccos c) := by rw [hy, hx]; ring
  have hcy : Real.cos y = K * c - S * s := by
    rw [hy2, Real.cos_two_pi_sub, Real.cos_add, hcos, ← hs, ← hSd, ← hKd]
  have hsy : Real.sin y = -(S * c + K * s) := by
    rw [hy2, Real.sin_two_pi_sub, Real.sin_add, hcos, ← hs, ← hSd, ← hKd]
  obtain ⟨M, hM⟩ : ∃ M, M = x - e * Real.sin x + 7 * Real.pi / 5 * (1 - e * Real.cos x) := ⟨_, rfl⟩
  have hrx : kepler_equ_elps x e M = -(7 * Real.pi / 5) * dE x e := by rw [kep_elps_eq, dE_eq, hM]; ring
  have hry : kepler_equ_elps y e M = 7 * Real.pi / 5 * dE y e := by
    rw [kep_elps_eq, dE_eq, hM, hsx, hcx, hsy, hcy, hy]
    linear_combination 2 * hE
  have hdE : ∀ z, 9 / 50 ≤ dE z e := fun z => by
    rw [dE_eq]
    have := mul_le_mul_of_nonneg_left (Real.cos_le_one z) he0.le
    linarith
  have hnx : newtonElps M e x = y := by
    rw [newtonElps, hrx, mul_div_assoc, div_self (by linarith [hdE x]), hy]; ring
  have hny : newtonElps M e y = x := by
    rw [newtonElps, hry, mul_div_assoc, div_self (by linarith [hdE y]), hy]; ring
  have hiter : ∀ k : ℕ, (newtonElps M e)^[k] x = x ∨ (newtonElps M e)^[k] x = y := by
    intro k
    induction k with
    | zero => exact Or.inl rfl
    | succ k ih =>
      rw [Function.iterate_succ_apply']
      rcases ih with h | h
      · rw [h, hnx]; exact Or.inr rfl
      · rw [h, hny]; exact Or.inl rfl
  -- the first one is a start the root search really uses
  have hlow : -1 ≤ (x - M) / e := by
    rw [le_div_iff₀ he0, hM, hcx, hsx]
    linarith
  have hhigh : (x - M) / e ≤ 1 := by
    rw [div_le_iff₀ he0, hM]
    have h3 := mul_le_mul_of_nonneg_left (Real.sin_le_one x) he0.le
    have h4 : 0 ≤ 7 * Real.pi / 5 * (1 - e * Real.cos x) := by
      have := hdE x
      rw [dE_eq] at this
      exact mul_nonneg (by positivity) (by linarith)
    linarith
  refine ⟨M, Real.arcsin ((x - M) / e), fun k => ?_⟩
  rw [Real.sin_arcsin hlow hhigh, mul_div_cancel₀ _ he0.ne', add_sub_cancel]
  rcases hiter k with h | h
  · rw [h, hrx, abs_mul, abs_neg, abs_of_pos (by positivity), abs_of_pos (by linarith [hdE x])]
    nlinarith [hdE x]
  · rw [h, hry, abs_mul, abs_of_pos (by positivity), abs_of_pos (by linarith [hdE y])]
    nlinarith [hdE y]

/-- Both ranges. -/
theorem cyc_exists {e : ℝ} (he : 401 / 500 ≤ e) (he1 : e < 1) : ∃ M E0 : ℝ, ∀ k : ℕ,
    1 / 10 ≤ |kepler_equ_elps ((newtonElps M e)^[k] (M + e * Real.sin E0)) e M| := by
  rcases le_total e (41 / 50) with h | h
  · exact cyc_low he h
  · obtain ⟨E0, hE0⟩ := cyc_start h he1
    exact ⟨cycM e, E0, fun k => by rw [hE0]; exact cyc_bad h he1 k⟩

section
variable {r v : V3 ℝ} {mu : ℝ}

/-- Every eccentric anomaly is reached by some state of the orbit. -/
theorem reach_phase (hmu : 0 < mu) (hh : angular_momentum r v ≠ ⟨0, 0, 0⟩) (ha : 0 < aOf r v mu) (E : ℝ) :
    ∃ t0, IsEccentric mu (aOf r v mu) (eOf r v mu) (exactProp r v mu t0).1 (exactProp r v mu t0).2 E ∧
      aOf (exactProp r v mu t0).1 (exactProp r v mu t0).2 mu = aOf r v mu ∧
      eOf (exactProp r v mu t0).1 (exactProp r v mu t0).2 mu = eOf r v mu := by
  obtain ⟨E0, -, -, hE0⟩ := C53_eccentric_exists hmu hh ha
  have hn : 0 < Real.sqrt (mu / aOf r v mu ^ 3) := Real.sqrt_pos.2 (by positivity)
  refine ⟨(E - eOf r v mu * Real.sin E - (E0 - eOf r v mu * Real.sin E0)) / Real.sqrt (mu / aOf r v mu ^ 3), ?_⟩
  have := C53_elliptic_motion hmu hh ha hE0 (E := E)
    (t := (E - eOf r v mu * Real.sin E - (E0 - eOf r v mu * Real.sin E0)) / Real.sqrt (mu / aOf r v mu ^ 3)) (by
      rw [kep_elps_eq]
      simp only [mean_anomaly_elps, sqrt_real]
      rw [mul_div_cancel₀ _ hn.ne']
      ring)
  exact ⟨this.1, this.2.1, this.2.2.1⟩

/-- A state at the right phase, with the right mean anomaly at arrival: every iterate is bad. -/
theorem cyc_uni (hmu : 0 < mu) (ha : 0 < aOf r v mu) {E0 M t : ℝ}
    (hbad : ∀ k : ℕ, 1 / 10 ≤ |kepler_equ_elps ((newtonElps M (eOf r v mu))^[k]
      (M + eOf r v mu * Real.sin E0)) (eOf r v mu) M|)
    (hecc : IsEccentric mu (aOf r v mu) (eOf r v mu) r v E0) (hmean : meanAt r v mu E0 t = M)
    (tol : ℝ) (max_iter : ℕ) : ∃ χ,
      solve_kepler_uni t (1 / aOf r v mu) (V3.norm r) (sigma_fn r v mu) mu tol max_iter = some χ ∧
      Real.sqrt (aOf r v mu) ^ 3 / 10
        ≤ |kepler_equ_uni χ (1 / aOf r v mu) (V3.norm r) (sigma_fn r v mu) t mu| := by
  obtain ⟨k, hk, -, hs, -, -⟩ := C13_uni t (1 / aOf r v mu) (V3.norm r) (sigma_fn r v mu) mu tol max_iter
  refine ⟨_, hs, ?_⟩
  rw [C55_elliptic_newton hmu ha hecc, (C53_elliptic_equation hmu ha hecc t _).1, ← meanAt, hmean,
    abs_mul, abs_of_pos (by positivity)]
  have := hbad k
  have hb : 0 ≤ Real.sqrt (aOf r v mu) ^ 3 := by positivity
  nlinarith

/-- C55 fails on every ellipse with `e ≥ 0.802`: there are a state on the orbit and a time of flight for which
`solve_kepler_uni`, with *every* tolerance and *every* iteration limit, returns a value whose residual is at least
`a^(3/2)/10` (Newton's method alternates between two points for ever). -/
theorem C55_cycle_refuted (hmu : 0 < mu) (hh : angular_momentum r v ≠ ⟨0, 0, 0⟩) (ha : 0 < aOf r v mu)
    (he : 401 / 500 ≤ eOf r v mu) (he1 : eOf r v mu < 1) :
    ∃ t0 t, ∃ r' v', (r', v') = exactProp r v mu t0 ∧ aOf r' v' mu = aOf r v mu ∧ eOf r' v' mu = eOf r v mu ∧
      ∀ (tol : ℝ) (max_iter : ℕ), ∃ χ,
        solve_kepler_uni t (1 / aOf r' v' mu) (V3.norm r') (sigma_fn r' v' mu) mu tol max_iter = some χ ∧
        Real.sqrt (aOf r v mu) ^ 3 / 10
          ≤ |kepler_equ_uni χ (1 / aOf r' v' mu) (V3.norm r') (sigma_fn r' v' mu) t mu| := by
  obtain ⟨M, E0, hE0⟩ := cyc_exists he he1
  obtain ⟨t0, hecc, haa, hee⟩ := reach_phase hmu hh ha E0
  have hn : 0 < Real.sqrt (mu / aOf r v mu ^ 3) := Real.sqrt_pos.2 (by positivity)
  set e := eOf r v mu with hedef
  obtain ⟨t, ht⟩ : ∃ t, t = (M - (E0 - e * Real.sin E0)) / Real.sqrt (mu / aOf r v mu ^ 3) := ⟨_, rfl⟩
  obtain ⟨s', hs'⟩ : ∃ s', s' = exactProp r v mu t0 := ⟨_, rfl⟩
  rw [← hs'] at hecc haa hee
  obtain ⟨r', v'⟩ := s'
  refine ⟨t0, t, r', v', hs', haa, hee, ?_⟩
  simp only at haa hee hecc
  intro tol max_iter
  have hmean : meanAt r' v' mu E0 t = M := by
    rw [meanAt, haa, hee]
    simp only [mean_anomaly_elps, sqrt_real]
    rw [ht, mul_div_cancel₀ _ hn.ne']; ring
  have ha' : 0 < aOf r' v' mu := by rw [haa]; exact ha
  have := cyc_uni (r := r') (v := v') hmu ha' (E0 := E0) (M := M) (t := t)
    (by rw [hee]; exact hE0) (by rw [haa, hee]; exact hecc) hmean tol max_iter
  obtain ⟨χ, h1, h2⟩ := this
  refine ⟨χ, h1, ?_⟩
  rw [← haa]; exact h2

/-- The same for `kepler`: on every ellipse with `e ≥ 0.802` there are a state and a time `t` for which the state
returned with the default settings is the exact state of a time that is off by at least a tenth of `√(a³/mu)`
(1.6 percent of the period). -/
theorem C55_kepler_cycle_refuted (hmu : 0 < mu) (hh : angular_momentum r v ≠ ⟨0, 0, 0⟩) (ha : 0 < aOf r v mu)
    (he : 401 / 500 ≤ eOf r v mu) (he1 : eOf r v mu < 1) :
    ∃ t0 t, ∃ r' v', (r', v') = exactProp r v mu t0 ∧ aOf r' v' mu = aOf r v mu ∧ eOf r' v' mu = eOf r v mu ∧
      ∃ r'' v'' t', kepler [t] r' v' mu = some ([r''], [v'']) ∧
        Real.sqrt (aOf r v mu) ^ 3 / 10 / Real.sqrt mu ≤ |t' - t| ∧ (r'', v'') = exactProp r' v' mu t' := by
  obtain ⟨t0, t, r', v', h, haa, hee, hbad⟩ := C55_cycle_refuted hmu hh ha he he1
  have hh' : angular_momentum r' v' ≠ ⟨0, 0, 0⟩ := by
    have h1 : angular_momentum (exactProp r v mu t0).1 (exactProp r v mu t0).2 = angular_momentum r v :=
      step_h (pos_ne hmu hh) hmu (radOf_pos hmu hh).ne'
    rw [← h] at h1
    rw [show angular_momentum r' v' = angular_momentum r v from h1]; exact hh
  have hk := kepler_eq_map [t] r' v' mu
  simp only [List.map_cons, List.map_nil] at hk
  obtain ⟨t1, χ, t', h1, h2, h3, h4, -⟩ := C23_exact_up_to_time (i := 0) hmu hh' hk rfl rfl
  simp only [List.getElem?_cons_zero, Option.some.injEq] at h1
  subst h1
  obtain ⟨χ', h5, h6⟩ := hbad defaultTol 50
  have h7 : solve_kepler_uni t (alphaOf r' v' mu) (V3.norm r') (sigma_fn r' v' mu) mu defaultTol 50 = some χ' := h5
  obtain rfl : χ' = χ := Option.some.inj (h7.symm.trans h2)
  refine ⟨t0, t, r', v', h, haa, hee, _, _, t', hk, ?_, h4⟩
  rw [h3, add_sub_cancel_left, abs_div, abs_of_pos (Real.sqrt_pos.2 hmu)]
  exact div_le_div_of_nonneg_right h6 (Real.sqrt_nonneg _)

end

/-- The hypotheses hold on the ellipse through `r = (1,0,0)`, `v = (0,7/5,0)`, `mu = 1`, with `a = 25`, `e = 24/25`. -/
example : angular_momentum (⟨1, 0, 0⟩ : V3 ℝ) ⟨0, 7 / 5, 0⟩ ≠ ⟨0, 0, 0⟩ ∧ aOf ⟨1, 0, 0⟩ ⟨0, 7 / 5, 0⟩ 1 = 25 ∧
    eOf ⟨1, 0, 0⟩ ⟨0, 7 / 5, 0⟩ 1 = 24 / 25 := by
  have h : angular_momentum (⟨1, 0, 0⟩ : V3 ℝ) ⟨0, 7 / 5, 0⟩ ≠ ⟨0, 0, 0⟩ := by
    intro h
    have := congrArg V3.z h
    simp [angular_momentum, V3.cross] at this
  have hn : V3.norm (⟨1, 0, 0⟩ : V3 ℝ) = 1 := by rw [norm_unfold]; simp
  have hn' : V3.norm (⟨0, 7 / 5, 0⟩ : V3 ℝ) ^ 2 = 49 / 25 := by
    rw [norm_unfold, Real.sq_sqrt (by positivity)]; norm_num
  have ha : aOf ⟨1, 0, 0⟩ ⟨0, 7 / 5, 0⟩ 1 = 25 := by
    simp only [aOf, semimajor_axis, hn, hn', Nat.cast_ofNat, Nat.cast_one]; norm_num
  have hs : sigma_fn (⟨1, 0, 0⟩ : V3 ℝ) ⟨0, 7 / 5, 0⟩ 1 = 0 := by
    have := sigma_rv (r := ⟨1, 0, 0⟩) (v := ⟨0, 7 / 5, 0⟩) (mu := 1) one_pos
    simp only [V3.dot, mul_zero, zero_mul, add_zero, Real.sqrt_one, one_mul] at this
    exact this.symm
  refine ⟨h, ha, ?_⟩
  have h1 := pOf_inv (r := ⟨1, 0, 0⟩) (v := ⟨0, 7 / 5, 0⟩) (mu := 1) one_pos h
  have h2 := pOf_alpha (r := ⟨1, 0, 0⟩) (v := ⟨0, 7 / 5, 0⟩) (mu := 1) one_pos h
  have hα : alphaOf (⟨1, 0, 0⟩ : V3 ℝ) ⟨0, 7 / 5, 0⟩ 1 = 1 / 25 := by
    have : alphaOf (⟨1, 0, 0⟩ : V3 ℝ) ⟨0, 7 / 5, 0⟩ 1 = 1 / aOf ⟨1, 0, 0⟩ ⟨0, 7 / 5, 0⟩ 1 := rfl
    rw [this, ha]
  rw [hα, hn, hs] at h1
  rw [hα, ← h1] at h2
  have he0 : 0 ≤ eOf (⟨1, 0, 0⟩ : V3 ℝ) ⟨0, 7 / 5, 0⟩ 1 := V3.norm_nonneg _
  have : eOf (⟨1, 0, 0⟩ : V3 ℝ) ⟨0, 7 / 5, 0⟩ 1 ^ 2 = (24 / 25) ^ 2 := by linarith
  exact (sq_eq_sq₀ he0 (by norm_num)).1 this

end Adx
