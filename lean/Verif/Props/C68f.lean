import Verif.Props.C68e
import Mathlib.Analysis.Calculus.MeanValue

/-! # C68, part 6: `kepler` in rounded arithmetic on orbits of low eccentricity

Unconditional version of C68_kepler_elliptic: for eccentricities up to 1/4 the root search is shown to stop, within four
steps, so that the result of `kepler` is accurate. -/

namespace Adx
open Spec V3

section
variable {r v : V3 ℝ} {mu : ℝ} (hmu : 0 < mu) (hh : angular_momentum r v ≠ ⟨0, 0, 0⟩)
include hmu hh

/-- On an ellipse the universal Kepler equation is the elliptic one, in `E + √α χ`. -/
theorem uni_elps (hα : 0 < alphaOf r v mu) :
    ∃ E, ∀ χ, alphaOf r v mu * radOf r v mu χ = dE (E + Real.sqrt (alphaOf r v mu) * χ) (eOf r v mu) ∧
      alphaOf r v mu * Real.sqrt (alphaOf r v mu) * kepU (alphaOf r v mu) (V3.norm r) (sigma_fn r v mu) χ
        = kepler_equ_elps (E + Real.sqrt (alphaOf r v mu) * χ) (eOf r v mu) (E - eOf r v mu * Real.sin E) := by
  obtain ⟨E, hE⟩ := radOf_elliptic hmu hh hα
  set α := alphaOf r v mu
  set b := Real.sqrt α
  set e := eOf r v mu
  refine ⟨E, fun χ => ⟨by rw [hE, dE_eq], ?_⟩⟩
  set f : ℝ → ℝ := fun χ => α * b * kepU α (V3.norm r) (sigma_fn r v mu) χ
    - kepler_equ_elps (E + b * χ) e (E - e * Real.sin E) with hf
  have hd : ∀ x, HasDerivAt f 0 x := fun x => by
    have h1 := (hasDerivAt_kepU α (V3.norm r) (sigma_fn r v mu) x).const_mul (α * b)
    have h2 := (hasDerivAt_elps (E + b * x) e (E - e * Real.sin E)).comp x
      (((hasDerivAt_id' x).const_mul b).const_add E)
    refine (h1.sub h2).congr_deriv ?_
    have := hE x
    rw [dE_eq]
    linear_combination b * this
  have hc := is_const_of_deriv_eq_zero (fun x => (hd x).differentiableAt) (fun x => (hd x).deriv) χ 0
  have h0 : f 0 = 0 := by simp only [hf, kepU_zero, kep_elps_eq]; simp
  rw [h0] at hc
  exact sub_eq_zero.1 hc

/-- Sizes on an ellipse of eccentricity at most 1/4. -/
theorem lowecc (hα : 0 < alphaOf r v mu) (he : eOf r v mu ≤ 1 / 4) :
    3 / 4 ≤ alphaOf r v mu * V3.norm r ∧ alphaOf r v mu * V3.norm r ≤ 5 / 4 ∧
    sMag r v mu * Real.sqrt (alphaOf r v mu) ≤ 1 ∧ 3 / 4 ≤ alphaOf r v mu * qOf r v mu ∧
    2 / V3.norm r + V3.norm v ^ 2 / mu ≤ 5 * alphaOf r v mu ∧
    V3.norm v ≤ 1.3 * (Real.sqrt mu * Real.sqrt (alphaOf r v mu)) ∧
    Real.sqrt (2 / qOf r v mu - alphaOf r v mu) ≤ 1.3 * Real.sqrt (alphaOf r v mu) := by
  obtain ⟨E, hE⟩ := uni_elps hmu hh hα
  have hE0 := (hE 0).1
  have he0 : 0 ≤ eOf r v mu := V3.norm_nonneg _
  have hr0 : 0 < V3.norm r := (norm_pos r).2 (pos_ne hmu hh)
  have hvv := alpha_vv (r := r) (v := v) hmu.ne'
  rw [← norm_sq] at hvv
  have hpa := pOf_alpha hmu hh
  have hrad : radOf r v mu 0 = V3.norm r := by simp [radOf, radU_zero]
  have hq : alphaOf r v mu * qOf r v mu = 1 - eOf r v mu := by
    have h1 : (0 : ℝ) < 1 + eOf r v mu := by linarith
    simp only [qOf, radius_periapsis, Nat.cast_one]
    rw [mul_div_assoc', div_eq_iff h1.ne']
    linarith
  have hqp := qOf_pos hmu hh
  rw [hrad, dE_eq] at hE0
  set α := alphaOf r v mu
  set e := eOf r v mu
  set q := qOf r v mu
  set r0 := V3.norm r
  have hc1 := Real.cos_le_one (E + Real.sqrt α * 0)
  have hc2 := Real.neg_one_le_cos (E + Real.sqrt α * 0)
  have a1 : 3 / 4 ≤ α * r0 := by nlinarith
  have a2 : α * r0 ≤ 5 / 4 := by nlinarith
  have hv2 : V3.norm v ^ 2 / mu = 2 / r0 - α := by rw [hvv]; field_simp
  have h2r : 2 / r0 ≤ 8 / 3 * α := by rw [div_le_iff₀ hr0]; linarith
  have hb : Real.sqrt α ^ 2 = α := Real.sq_sqrt hα.le
  have hw : Real.sqrt mu ^ 2 = mu := Real.sq_sqrt hmu.le
  have hw0 : 0 < Real.sqrt mu := Real.sqrt_pos.2 hmu
  have hb0 : 0 < Real.sqrt α := Real.sqrt_pos.2 hα
  have hv0 : 0 ≤ V3.norm v := V3.norm_nonneg v
  refine ⟨a1, a2, ?_, by rw [hq]; linarith, by rw [hv2]; linarith, ?_, ?_⟩
  · have h1 : (sMag r v mu * Real.sqrt α) ^ 2 = 2 * (α * r0) - (α * r0) ^ 2 := by
      rw [sMag, div_mul_eq_mul_div, div_pow, mul_pow, mul_pow, hb, hw]
      have : V3.norm v ^ 2 = (2 / r0 - α) * mu := by rw [← hv2]; field_simp
      rw [this]; field_simp; rfl
    have h2 : (sMag r v mu * Real.sqrt α) ^ 2 ≤ 1 ^ 2 := by rw [h1]; nlinarith [sq_nonneg (α * r0 - 1)]
    exact abs_le_of_sq_le_sq' h2 (by norm_num) |>.2
  · have h1 : V3.norm v ^ 2 ≤ (1.3 * (Real.sqrt mu * Real.sqrt α)) ^ 2 := by
      rw [mul_pow, mul_pow, hb, hw, hvv]
      have : mu * (2 / r0 - α) ≤ mu * (8 / 3 * α - α) := by gcongr
      have h3 : 0 < mu * α := by positivity
      norm_num
      linarith
    exact abs_le_of_sq_le_sq' h1 (by positivity) |>.2
  · rw [Real.sqrt_le_left (by positivity), mul_pow, hb]
    have : 2 / q ≤ 8 / 3 * α := by rw [div_le_iff₀ hqp]; linarith
    norm_num
    linarith

end

/-- Moving the argument moves the residual of the elliptic equation by at most `1 + e` as much. -/
theorem elps_lip' {e : ℝ} (h0 : 0 ≤ e) (h1 : e ≤ 1 / 4) (M y z : ℝ) :
    |kepler_equ_elps y e M| ≤ |kepler_equ_elps z e M| + 5 / 4 * |y - z| := by
  have e1 : kepler_equ_elps y e M = kepler_equ_elps z e M + ((y - z)
      - e * (Real.sin y - Real.sin z)) := by rw [kep_elps_eq, kep_elps_eq]; ring
  have e2 : |Real.sin y - Real.sin z| ≤ |y - z| := by
    have := Real.abs_sin_sub_sin_le y z
    simpa using this
  have e3 : |(y - z) - e * (Real.sin y - Real.sin z)| ≤ 5 / 4 * |y - z| := by
    refine (abs_sub _ _).trans ?_
    rw [abs_mul, abs_of_nonneg h0]
    nlinarith [abs_nonneg (y - z), abs_nonneg (Real.sin y - Real.sin z)]
  rw [e1]
  exact (abs_add_le _ _).trans (by linarith)

/-- A multiple of a rounding bound is the bound for a multiple. -/
theorem gam_mul_le {u c k n : ℝ} (hu : 0 < u) (hk : 0 ≤ k) (hc : 1 ≤ c) (h : c * k ≤ n) (hn : n * u < 1) :
    c * gam u k ≤ gam u n := by
  have hkn : k ≤ n := by nlinarith
  have h1 : k * u ≤ n * u := by gcongr
  unfold gam
  rw [← mul_div_assoc, ← mul_assoc]
  exact div_le_div₀ (by nlinarith) (by gcongr) (by linarith) (by linarith)

section
variable {F : Fp} {u L : ℝ} (hF : StdModel F u L)

section
variable {r v : V3 (Rnd F)} {mu t : Rnd F} (hmu : 0 < mu.val) (hh : angular_momentum r.re v.re ≠ ⟨0, 0, 0⟩)
  (hα : 0 < alphaOf r.re v.re mu.val) (he : eOf r.re v.re mu.val ≤ 1 / 4)

/-- The advance of the mean anomaly during the time of flight. -/
noncomputable def advance (r v : V3 (Rnd F)) (mu t : Rnd F) : ℝ :=
  alphaOf r.re v.re mu.val * Real.sqrt (alphaOf r.re v.re mu.val) * (Real.sqrt mu.val * |t.val|)

/-- Number of roundings in a step of the root search, for an advance `T` of the mean anomaly. -/
noncomputable def lossN (L T : ℝ) : ℝ := 10 * (T + 3) * (L + 178) + (L + 179)

/-- The residual, made dimensionless. -/
noncomputable def resN (r v : V3 (Rnd F)) (mu t : Rnd F) (χ : ℝ) : ℝ :=
  alphaOf r.re v.re mu.val * Real.sqrt (alphaOf r.re v.re mu.val) *
    kepler_equ_uni χ (alphaOf r.re v.re mu.val) (V3.norm r.re) (sigma_fn r.re v.re mu.val) t.val mu.val

theorem advance_nonneg (hα : 0 < alphaOf r.re v.re mu.val) : 0 ≤ advance r v mu t := by unfold advance; positivity

theorem lossN_facts {L T : ℝ} (hL : 1 ≤ L) (hT : 0 ≤ T) :
    L + 170 + 9 ≤ lossN L T ∧ 6 * (T + 2) * (L + 170 + 9) ≤ lossN L T ∧ 5 * (T + 3) * (L + 170 + 8) ≤ lossN L T ∧
    1000 ≤ lossN L T ∧ (T + 1) * 85 ≤ lossN L T ∧ 4 * (T + 4) * (L + 170 + 11) ≤ lossN L T := by
  unfold lossN
  refine ⟨?_, ?_, ?_, ?_, ?_, ?_⟩ <;> nlinarith [mul_nonneg hT (by linarith : 0 ≤ L - 1)]

include hF in
theorem lossN_le {T : ℝ} (hT : 0 ≤ T) (hN : lossN L T * u ≤ 1 / 2000) :
    0 ≤ gam u (lossN L T) ∧ gam u (lossN L T) ≤ 1 / 1000 ∧ lossN L T * u < 1 ∧ 0 ≤ lossN L T ∧
      1000 * (u * (T + 3)) ≤ gam u (lossN L T) := by
  have hL1 := hF.one_le
  have hu0 := hF.u_pos
  have h0 : 0 ≤ lossN L T := by unfold lossN; positivity
  have hNu : 0 ≤ lossN L T * u := by positivity
  refine ⟨?_, ?_, by linarith, h0, ?_⟩
  · unfold gam; exact div_nonneg hNu (by linarith)
  · unfold gam; rw [div_le_iff₀ (by linarith)]; linarith
  · have h1 : 1000 * (T + 3) ≤ lossN L T := by unfold lossN; nlinarith
    unfold gam
    rw [le_div_iff₀ (by linarith)]
    have h2 : 1000 * (T + 3) * u ≤ lossN L T * u := by gcongr
    have h3 : 0 ≤ 1000 * (u * (T + 3)) := by positivity
    nlinarith

include hmu hh hα he in
/-- A small residual bounds the anomaly. -/
theorem chi_of_res {χ : ℝ} (hχ : |resN r v mu t χ| ≤ 51 / 100) :
    Real.sqrt (alphaOf r.re v.re mu.val) * |χ| ≤ advance r v mu t + 2 := by
  obtain ⟨E, hE⟩ := uni_elps hmu hh hα
  have h := (hE χ).2
  have he0 : 0 ≤ eOf r.re v.re mu.val := V3.norm_nonneg _
  unfold resN at hχ
  unfold advance
  rw [kep_uni_eq, mul_sub, h, kep_elps_eq] at hχ
  set α := alphaOf r.re v.re mu.val
  set b := Real.sqrt α
  set e := eOf r.re v.re mu.val
  have hb0 : 0 ≤ b := Real.sqrt_nonneg _
  have e1 : |α * b * (Real.sqrt mu.val * t.val)| = α * b * (Real.sqrt mu.val * |t.val|) := by
    rw [abs_mul, abs_mul (Real.sqrt mu.val), abs_of_nonneg (Real.sqrt_nonneg mu.val), abs_of_nonneg (by positivity)]
  have e2 : |e * (Real.sin (E + b * χ) - Real.sin E)| ≤ 1 / 2 := by
    rw [abs_mul, abs_of_nonneg he0]
    have : |Real.sin (E + b * χ) - Real.sin E| ≤ 2 := by
      refine (abs_sub _ _).trans ?_
      linarith [Real.abs_sin_le_one (E + b * χ), Real.abs_sin_le_one E]
    nlinarith [abs_nonneg (Real.sin (E + b * χ) - Real.sin E)]
  have e3 : b * |χ| = |b * χ| := by rw [abs_mul, abs_of_nonneg hb0]
  rw [e3, ← e1]
  set A := α * b * (Real.sqrt mu.val * t.val)
  set B := e * (Real.sin (E + b * χ) - Real.sin E) with hB
  have e4 : b * χ = (E + b * χ - e * Real.sin (E + b * χ) - (E - e * Real.sin E) - A) + B + A := by rw [hB]; ring
  rw [e4]
  refine (abs_add_le _ _).trans ?_
  have := abs_add_le (E + b * χ - e * Real.sin (E + b * χ) - (E - e * Real.sin E) - A) B
  linarith

include hF hmu hh hα he in
/-- The computed residual and the computed slope at a point of small residual. -/
theorem uni_eval (hN : lossN L (advance r v mu t) * u ≤ 1 / 2000) (chi : Rnd F)
    (hχ : |resN r v mu t chi.val| ≤ 51 / 100) :
    alphaOf r.re v.re mu.val * Real.sqrt (alphaOf r.re v.re mu.val) *
      |(kepler_equ_uni chi (alphaR r v mu) (V3.norm r) (sigma_fn r v mu) t mu).val
        - kepler_equ_uni chi.val (alphaOf r.re v.re mu.val) (V3.norm r.re) (sigma_fn r.re v.re mu.val) t.val mu.val|
      ≤ gam u (lossN L (advance r v mu t)) ∧
    Within u (lossN L (advance r v mu t) - 1) (dchi chi (alphaR r v mu) (V3.norm r) (sigma_fn r v mu)).val
      (radOf r.re v.re mu.val chi.val) := by
  have hL1 := hF.one_le
  have hL2 := hF.le_hundred
  have hu0 := hF.u_pos
  have hu1 : u ≤ 1 / 1000 := hF.u_small
  have hT0 := advance_nonneg (t := t) hα
  obtain ⟨g0, g1, g2, g3, g4⟩ := lossN_le hF hT0 hN
  have hx := chi_of_res hmu hh hα he hχ
  obtain ⟨a1, a2, a3, a4, a5, a6, -⟩ := lowecc hmu hh hα he
  have hT : advance r v mu t = alphaOf r.re v.re mu.val * Real.sqrt (alphaOf r.re v.re mu.val)
    * (Real.sqrt mu.val * |t.val|) := rfl
  obtain ⟨f1, f2, f3, f4, -, -⟩ := lossN_facts hL1 hT0
  have h5u : 1000 * u ≤ 1 / 2000 := (mul_le_mul_of_nonneg_right f4 hu0.le).trans hN
  have hw := within_alpha hF r v mu hmu hα.ne' (c := 5) (by rwa [abs_of_pos hα]) (by linarith)
  have hU : UBnd u (L + 170) _ _ _ _ chi (alphaR r v mu) (alphaOf r.re v.re mu.val) :=
    UBnd.mono hF (ubnd_elliptic hF hα hw) (by linarith) le_rfl le_rfl le_rfl le_rfl
  have hσ : Near u 5 (sMag r.re v.re mu.val) (sigma_fn r v mu).val (sigma_fn r.re v.re mu.val) :=
    (near_sigma hF r v mu).mono hF le_rfl (div_le_div_of_nonneg_right (V3.adot_le _ _) (Real.sqrt_nonneg _))
  have hr0 : 0 ≤ V3.norm r.re := V3.norm_nonneg _
  have hn1 := near_kepler_uni hF hU (within_norm hF r) hr0 hσ t mu
  have hn2 := near_dchi hF hU (within_norm hF r) hr0 hσ
  have hρ := qOf_le_radOf hmu hh chi.val
  have hρ0 := radOf_pos (χ := chi.val) hmu hh
  set T := advance r v mu t
  set α := alphaOf r.re v.re mu.val
  set b := Real.sqrt α with hb
  have hb0 : 0 < b := Real.sqrt_pos.2 hα
  have hb2 : b * b = α := Real.mul_self_sqrt hα.le
  set r0 := V3.norm r.re
  set s := sMag r.re v.re mu.val
  have hs0 : 0 ≤ s := hσ.m_nonneg
  set x := |chi.val|
  have hx0 : 0 ≤ x := abs_nonneg _
  have hPm : α * b * (r0 * x + s * ((2 + b * x) / α) + 2 * x / α + Real.sqrt mu.val * |t.val|)
      = α * r0 * (b * x) + s * b * (2 + b * x) + 2 * (b * x) + T := by
    rw [hT]; field_simp
  have hPd : α * (r0 * (1 + b * x) + s * x + (2 + b * x) / α) = α * r0 * (1 + b * x) + s * b * (b * x) + (2 + b * x) := by
    have : α * (s * x) = s * b * (b * x) := by rw [← hb2]; ring
    rw [mul_add, mul_add, this]; field_simp
  set y := b * x with hy
  have hy0 : 0 ≤ y := by positivity
  constructor
  · have hk9 : (L + 170 + 9) * u < 1 := (mul_le_mul_of_nonneg_right f1 hu0.le).trans_lt g2
    have hbd := hn1.bound hF (by linarith) hk9
    calc α * b * _ ≤ α * b * (gam u (L + 170 + 9) * (r0 * x + s * ((2 + y) / α) + 2 * x / α + Real.sqrt mu.val * |t.val|)) := by
          gcongr
      _ = (α * r0 * y + s * b * (2 + y) + 2 * y + T) * gam u (L + 170 + 9) := by rw [← hPm]; ring
      _ ≤ (6 * (T + 2)) * gam u (L + 170 + 9) := by
          refine mul_le_mul_of_nonneg_right ?_ (gam_nonneg hF (by linarith) hk9)
          have h1 : α * r0 * y ≤ 5 / 4 * y := mul_le_mul_of_nonneg_right a2 hy0
          have h2 : s * b * (2 + y) ≤ 1 * (2 + y) := mul_le_mul_of_nonneg_right a3 (by linarith)
          linarith
      _ ≤ _ := gam_mul_le hu0 (by linarith) (by linarith) f2 g2
  · rw [dchi_eq] at hn2
    have := hn2.within hF (by linarith) hρ0.ne' (c := 5 * (T + 3)) (by
      rw [abs_of_pos hρ0]
      have h1 : α * r0 * (1 + y) ≤ 5 / 4 * (1 + y) := mul_le_mul_of_nonneg_right a2 (by linarith)
      have h2 : s * b * y ≤ 1 * y := mul_le_mul_of_nonneg_right a3 hy0
      have h3 : α * (r0 * (1 + y) + s * x + (2 + y) / α) ≤ α * (5 * (T + 3) * radOf r.re v.re mu.val chi.val) := by
        rw [hPd]
        have h4 : 3 / 4 ≤ α * radOf r.re v.re mu.val chi.val := a4.trans (mul_le_mul_of_nonneg_left hρ hα.le)
        have h5 : 5 * (T + 3) * (3 / 4) ≤ 5 * (T + 3) * (α * radOf r.re v.re mu.val chi.val) :=
          mul_le_mul_of_nonneg_left h4 (by linarith)
        linarith
      exact le_of_mul_le_mul_left h3 hα) (by
      have := mul_le_mul_of_nonneg_right f3 hu0.le
      linarith)
    refine this.mono hF ?_
    unfold lossN; linarith

include hF hmu hh hα he in
/-- One rounded Newton step: the dimensionless residual is squared, up to rounding. -/
theorem uni_step_rnd (hN : lossN L (advance r v mu t) * u ≤ 1 / 2000) (chi : Rnd F) {φ : ℝ}
    (hχ : |resN r v mu t chi.val| ≤ φ) (hφ : φ ≤ 51 / 100) :
    |resN r v mu t (newtonUni t (alphaR r v mu) (V3.norm r) (sigma_fn r v mu) mu chi).val|
      ≤ 2 / 9 * φ ^ 2 + 3 * gam u (lossN L (advance r v mu t)) := by
  have hu0 := hF.u_pos
  have hL1 := hF.one_le
  have hT0 := advance_nonneg (t := t) hα
  obtain ⟨g0, g1, g2, g3, g4⟩ := lossN_le hF hT0 hN
  obtain ⟨-, -, -, f4, -, -⟩ := lossN_facts hL1 hT0
  have hx := chi_of_res hmu hh hα he (hχ.trans hφ)
  obtain ⟨ev1, ev2⟩ := uni_eval hF hmu hh hα he hN chi (hχ.trans hφ)
  obtain ⟨E, hE⟩ := uni_elps hmu hh hα
  have he0 : 0 ≤ eOf r.re v.re mu.val := V3.norm_nonneg _
  have hρ := qOf_le_radOf hmu hh chi.val
  have a4 := (lowecc hmu hh hα he).2.2.2.1
  have hρ0 := radOf_pos (χ := chi.val) hmu hh
  have hy : newtonUni t (alphaR r v mu) (V3.norm r) (sigma_fn r v mu) mu chi
    = chi - kepler_equ_uni chi (alphaR r v mu) (V3.norm r) (sigma_fn r v mu) t mu
      / dchi chi (alphaR r v mu) (V3.norm r) (sigma_fn r v mu) := rfl
  unfold resN at hχ ⊢
  set Λ := gam u (lossN L (advance r v mu t)) with hΛ
  set N := lossN L (advance r v mu t)
  set T := advance r v mu t
  set fh := kepler_equ_uni chi (alphaR r v mu) (V3.norm r) (sigma_fn r v mu) t mu
  set dh := dchi chi (alphaR r v mu) (V3.norm r) (sigma_fn r v mu)
  rw [hy]
  set α := alphaOf r.re v.re mu.val
  set b := Real.sqrt α with hb
  have hb0 : 0 < b := Real.sqrt_pos.2 hα
  set e := eOf r.re v.re mu.val
  set ρ := radOf r.re v.re mu.val chi.val
  have hE1 : α * ρ = dE (E + b * chi.val) e := (hE chi.val).1
  have hK : ∀ χ, α * b * kepler_equ_uni χ α (V3.norm r.re) (sigma_fn r.re v.re mu.val) t.val mu.val
      = kepler_equ_elps (E + b * χ) e (E - e * Real.sin E + α * b * (Real.sqrt mu.val * t.val)) := fun χ => by
    rw [kep_uni_eq, mul_sub, (hE χ).2, kep_elps_eq, kep_elps_eq]; ring
  set M := E - e * Real.sin E + α * b * (Real.sqrt mu.val * t.val)
  set fs := kepler_equ_uni chi.val α (V3.norm r.re) (sigma_fn r.re v.re mu.val) t.val mu.val with hfs
  have hP : 0 < α * b := by positivity
  have hf : |fh.val - fs| ≤ Λ / (α * b) := by rw [le_div_iff₀ hP]; linarith
  have hm : 3 / (4 * α) ≤ ρ := by
    rw [div_le_iff₀ (by positivity)]
    have := mul_le_mul_of_nonneg_left hρ hα.le
    linarith
  have hst := newton_rnd hF chi fh dh hf ev2 (by linarith) (by positivity) hm (by rw [sub_add_cancel]; exact g2)
  rw [sub_add_cancel, ← hΛ] at hst
  have hst2 := mul_le_mul_of_nonneg_left hst hb0.le
  set φ' := |α * b * fs| with hφ'
  have hφ'0 : 0 ≤ φ' := abs_nonneg _
  have hφ'e : φ' = α * b * |fs| := by rw [hφ', abs_mul, abs_of_pos hP]
  have eG : b * ((Λ * (|fs| + Λ / (α * b)) + Λ / (α * b)) / (3 / (4 * α))) = 4 / 3 * (Λ * (φ' + Λ) + Λ) := by
    rw [hφ'e]; field_simp
  have eF : b * (|fs| / (3 / (4 * α))) = 4 / 3 * φ' := by rw [hφ'e]; field_simp
  rw [mul_add, mul_left_comm b u, mul_add b, mul_add b, eG, eF] at hst2
  have hΛφ : Λ * (φ' + Λ) ≤ Λ * (511 / 1000) := mul_le_mul_of_nonneg_left (by linarith) g0
  have hG : 4 / 3 * (Λ * (φ' + Λ) + Λ) ≤ 2.02 * Λ := by norm_num; linarith
  have hG1 : 2.02 * Λ ≤ 3 / 1000 := by norm_num; linarith
  have hu2 : u * (b * |chi.val| + 4 / 3 * φ' + 4 / 3 * (Λ * (φ' + Λ) + Λ)) ≤ u * (T + 3) :=
    mul_le_mul_of_nonneg_left (by linarith) hu0.le
  set y := (chi - fh / dh).val
  set z := chi.val - fs / ρ with hz
  have hyz : b * |y - z| ≤ 2.1 * Λ := by norm_num at hG ⊢; linarith
  have hnz : E + b * z = newtonElps M e (E + b * chi.val) := by
    rw [newtonElps, ← hK, ← hfs, ← hE1, hz]; field_simp; ring
  have hres := elps_newton_residual he0 (by linarith : e < 1) M (E + b * chi.val)
  have hsz := elps_newton_step he0 (by linarith : e < 1) M (E + b * chi.val)
  rw [← hnz, ← hK, ← hfs, ← hφ'] at hsz
  rw [← hnz] at hres
  have hsz' : |E + b * z - (E + b * chi.val)| ≤ 4 / 3 * φ := by
    refine hsz.trans ?_
    rw [div_le_iff₀ (by linarith)]
    have hφ0 : 0 ≤ φ := hφ'0.trans hχ
    nlinarith
  have hrz : |kepler_equ_elps (E + b * z) e M| ≤ 2 / 9 * φ ^ 2 := by
    refine hres.trans ?_
    have h2 : (E + b * z - (E + b * chi.val)) ^ 2 ≤ (4 / 3 * φ) ^ 2 := by
      rw [← sq_abs]; exact pow_le_pow_left₀ (abs_nonneg _) hsz' 2
    have h3 : e * (E + b * z - (E + b * chi.val)) ^ 2 ≤ 1 / 4 * (4 / 3 * φ) ^ 2 :=
      mul_le_mul he h2 (sq_nonneg _) (by norm_num)
    linarith
  have hl := elps_lip' he0 he M (E + b * y) (E + b * z)
  have e5 : |E + b * y - (E + b * z)| = b * |y - z| := by
    rw [show E + b * y - (E + b * z) = b * (y - z) by ring, abs_mul, abs_of_pos hb0]
  rw [e5] at hl
  rw [hK]
  norm_num at hyz ⊢
  linarith

include hF hmu hh hα he in
/-- The rounded starting value has dimensionless residual at most 0.51. -/
theorem uni_start_rnd (hN : lossN L (advance r v mu t) * u ≤ 1 / 2000) :
    |resN r v mu t (uniStart t (alphaR r v mu) mu).val| ≤ 51 / 100 := by
  have hu0 := hF.u_pos
  have hL1 := hF.one_le
  have hT0 := advance_nonneg (t := t) hα
  obtain ⟨g0, g1, g2, g3, g4⟩ := lossN_le hF hT0 hN
  obtain ⟨-, -, -, f4, f5, -⟩ := lossN_facts hL1 hT0
  have h5u : 1000 * u ≤ 1 / 2000 := (mul_le_mul_of_nonneg_right f4 hu0.le).trans hN
  obtain ⟨a1, a2, a3, a4, a5, -⟩ := lowecc hmu hh hα he
  have hw := within_alpha hF r v mu hmu hα.ne' (c := 5) (by rwa [abs_of_pos hα]) (by linarith)
  have hS : Within u 85 (uniStart t (alphaR r v mu) mu).val
      (Real.sqrt mu.val * |alphaOf r.re v.re mu.val| * t.val) :=
    (((((Within.ex mu).sqrt hF).mul hF hw.abs).mul hF (.ex t))).mono hF (by norm_num)
  have hb := hS.bound hF (by norm_num) (by linarith)
  obtain ⟨E, hE⟩ := uni_elps hmu hh hα
  have he0 : 0 ≤ eOf r.re v.re mu.val := V3.norm_nonneg _
  unfold resN
  have hT : advance r v mu t = alphaOf r.re v.re mu.val * Real.sqrt (alphaOf r.re v.re mu.val)
    * (Real.sqrt mu.val * |t.val|) := rfl
  set Λ := gam u (lossN L (advance r v mu t))
  set T := advance r v mu t
  set x := (uniStart t (alphaR r v mu) mu).val
  set α := alphaOf r.re v.re mu.val
  set b := Real.sqrt α
  have hb0 : 0 < b := Real.sqrt_pos.2 hα
  set e := eOf r.re v.re mu.val
  have hK : ∀ χ, α * b * kepler_equ_uni χ α (V3.norm r.re) (sigma_fn r.re v.re mu.val) t.val mu.val
      = kepler_equ_elps (E + b * χ) e (E - e * Real.sin E + α * b * (Real.sqrt mu.val * t.val)) := fun χ => by
    rw [kep_uni_eq, mul_sub, (hE χ).2, kep_elps_eq, kep_elps_eq]; ring
  rw [abs_of_pos hα] at hb
  set z := Real.sqrt mu.val * α * t.val with hz
  have hbz : b * |z| = T := by
    rw [hz, hT, abs_mul, abs_mul, abs_of_pos hα, abs_of_nonneg (Real.sqrt_nonneg mu.val)]; ring
  have hxz : |E + b * x - (E + b * z)| ≤ Λ := by
    rw [show E + b * x - (E + b * z) = b * (x - z) by ring, abs_mul, abs_of_pos hb0]
    calc b * |x - z| ≤ b * (gam u 85 * |z|) := by gcongr
      _ = T * gam u 85 := by rw [← hbz]; ring
      _ ≤ (T + 1) * gam u 85 := by
          refine mul_le_mul_of_nonneg_right (by linarith) (gam_nonneg hF (by norm_num) (by linarith))
      _ ≤ _ := gam_mul_le hu0 (by norm_num) (by linarith) f5 g2
  rw [hK]
  refine (elps_lip' he0 he _ _ (E + b * z)).trans ?_
  have h0 : |kepler_equ_elps (E + b * z) e (E - e * Real.sin E + α * b * (Real.sqrt mu.val * t.val))| ≤ 1 / 2 := by
    have e1 : kepler_equ_elps (E + b * z) e (E - e * Real.sin E + α * b * (Real.sqrt mu.val * t.val))
        = -(e * (Real.sin (E + b * z) - Real.sin E)) := by rw [kep_elps_eq, hz]; ring
    rw [e1, abs_neg, abs_mul, abs_of_nonneg he0]
    have : |Real.sin (E + b * z) - Real.sin E| ≤ 2 := by
      refine (abs_sub _ _).trans ?_
      linarith [Real.abs_sin_le_one (E + b * z), Real.abs_sin_le_one E]
    nlinarith [abs_nonneg (Real.sin (E + b * z) - Real.sin E)]
  linarith

include hF hmu hh hα he in
/-- C68: on an orbit of eccentricity at most 1/4 the root search stops within four steps, if the tolerance is above the
rounding errors. -/
theorem C68_uni_stops (hN : lossN L (advance r v mu t) * u ≤ 1 / 2000) {tol : Rnd F} {max_iter : ℕ}
    (ht1 : 10 * gam u (lossN L (advance r v mu t))
      ≤ alphaOf r.re v.re mu.val * Real.sqrt (alphaOf r.re v.re mu.val) * tol.val)
    (ht2 : 1 / 10 ^ 13 ≤ alphaOf r.re v.re mu.val * Real.sqrt (alphaOf r.re v.re mu.val) * tol.val) :
    ∃ k chi chip, k ≤ 4 ∧ uniRun t (alphaR r v mu) (V3.norm r) (sigma_fn r v mu) mu tol max_iter = some (k, chi, chip) ∧
      |resN r v mu t chi.val| ≤ 51 / 100 := by
  have hT0 := advance_nonneg (t := t) hα
  obtain ⟨g0, g1, g2, g3, g4⟩ := lossN_le hF hT0 hN
  have step := fun (c : Rnd F) {φ : ℝ} => uni_step_rnd hF hmu hh hα he hN c (φ := φ)
  set it := fun j => (newtonUni t (alphaR r v mu) (V3.norm r) (sigma_fn r v mu) mu)^[j] (uniStart t (alphaR r v mu) mu)
    with hit
  have hits : ∀ j, it (j + 1) = newtonUni t (alphaR r v mu) (V3.norm r) (sigma_fn r v mu) mu (it j) := fun j =>
    Function.iterate_succ_apply' _ _ _
  have r0 : |resN r v mu t (it 0).val| ≤ 51 / 100 := uni_start_rnd hF hmu hh hα he hN
  set Λ := gam u (lossN L (advance r v mu t))
  have r1 : |resN r v mu t (it 1).val| ≤ 61 / 1000 := by
    rw [hits]; refine (step _ r0 le_rfl).trans ?_
    norm_num; linarith
  have r2 : |resN r v mu t (it 2).val| ≤ 83 / 100000 + 3 * Λ := by
    rw [hits]; refine (step _ r1 (by norm_num)).trans ?_
    norm_num
  have r3 : |resN r v mu t (it 3).val| ≤ 16 / 10 ^ 8 + 301 / 100 * Λ := by
    rw [hits]; refine (step _ r2 (by norm_num; linarith)).trans ?_
    have : Λ ^ 2 ≤ 1 / 1000 * Λ := by nlinarith
    nlinarith
  have r4 : |resN r v mu t (it 4).val| ≤ 1 / 10 ^ 14 + 301 / 100 * Λ := by
    rw [hits]; refine (step _ r3 (by norm_num; linarith)).trans ?_
    have : Λ ^ 2 ≤ 1 / 1000 * Λ := by nlinarith
    nlinarith
  have rall : ∀ j, j ≤ 4 → |resN r v mu t (it j).val| ≤ 51 / 100 := by
    intro j hj
    interval_cases j
    · exact r0
    · exact r1.trans (by norm_num)
    · exact r2.trans (by norm_num; linarith)
    · exact r3.trans (by norm_num; linarith)
    · exact r4.trans (by norm_num; linarith)
  have hb : 0 < Real.sqrt (alphaOf r.re v.re mu.val) := Real.sqrt_pos.2 hα
  have hP : 0 < alphaOf r.re v.re mu.val * Real.sqrt (alphaOf r.re v.re mu.val) := by positivity
  have hsmall : |(kepler_equ_uni (it 4) (alphaR r v mu) (V3.norm r) (sigma_fn r v mu) t mu).val| ≤ tol.val := by
    have ev := (uni_eval hF hmu hh hα he hN (it 4) (rall 4 le_rfl)).1
    unfold resN at r4
    rw [abs_mul, abs_of_pos hP] at r4
    generalize kepler_equ_uni (it 4).val (alphaOf r.re v.re mu.val) (V3.norm r.re) (sigma_fn r.re v.re mu.val) t.val
      mu.val = f at ev r4
    generalize (kepler_equ_uni (it 4) (alphaR r v mu) (V3.norm r) (sigma_fn r v mu) t mu).val = fh at ev ⊢
    generalize alphaOf r.re v.re mu.val * Real.sqrt (alphaOf r.re v.re mu.val) = P at *
    have h1 : |fh| ≤ |fh - f| + |f| := by
      calc |fh| = |(fh - f) + f| := by ring_nf
        _ ≤ _ := abs_add_le _ _
    have h2 : P * |fh| ≤ P * (|fh - f| + |f|) := by gcongr
    have h3 : P * |fh| ≤ P * tol.val := by
      rw [mul_add] at h2
      norm_num at r4 ht2
      linarith
    exact le_of_mul_le_mul_left h3 hP
  obtain ⟨k, hk, hrun, -, hbefore, -⟩ := C13_uni t (alphaR r v mu) (V3.norm r) (sigma_fn r v mu) mu tol max_iter
  have hk4 : k ≤ 4 := by
    by_contra hc
    have h := hbefore 4 (by omega)
    simp only [Rnd.lt_rnd, Rnd.val_abs, decide_eq_true_eq] at h
    exact absurd hsmall (not_le.2 h)
  exact ⟨k, _, _, hk4, hrun, rall k hk4⟩

theorem eps_arith {α b T X r0 s τ : ℝ} (hα : α ≠ 0) (hX : b * X = T + 2) (hT : T = α * b * τ) :
    α * b * (r0 * X + s * ((2 + b * X) / α) + 2 * X / α + τ) = α * r0 * (T + 2) + s * b * (T + 4) + 2 * (T + 2) + T := by
  have h1 : α * b * (r0 * X + s * ((2 + b * X) / α) + 2 * X / α + τ)
      = α * r0 * (b * X) + s * b * (2 + b * X) + 2 * (b * X) + α * b * τ := by field_simp
  rw [h1, hX, ← hT]; ring

/-- The arithmetic at the end of C68_kepler_lowecc, position. -/
theorem pos_arith {α b T r0 s w tol Λ ε g X a c V S : ℝ} (hα : 0 < α) (hb : 0 < b) (hb2 : b * b = α) (hT : 0 ≤ T)
    (hw : 0 < w) (hr0 : 0 < r0) (hs : 0 ≤ s) (hr : α * r0 ≤ 5 / 4) (hsb : s * b ≤ 1) (hX : X = (T + 2) / b)
    (hε : α * b * ε ≤ 11 / 10 * (α * b * tol)) (hε0 : 0 ≤ ε) (hS : S ≤ 1.3 * b) (hg : 0 ≤ g)
    (hgΛ : 4 * (T + 4) * g ≤ Λ) (hΛ : 10 * Λ ≤ α * b * tol) (ha : a ≤ r0) (hc : c ≤ V) (hV : V ≤ 1.3 * (w * b)) :
    S * ε + (g * (1 + (2 + b * X) / α / r0) * a + g * ((r0 * X + s * ((2 + b * X) / α)) / w) * c) ≤ 1.6 * b * tol := by
  have hbX : b * X = T + 2 := by rw [hX]; field_simp
  have hP : 0 < α * b := by positivity
  have hX0 : 0 ≤ X := by rw [hX]; positivity
  have h1 : S * ε ≤ 1.3 * b * ε := mul_le_mul_of_nonneg_right hS hε0
  have hε' : ε ≤ 11 / 10 * tol := by
    have : α * b * ε ≤ α * b * (11 / 10 * tol) := by linarith
    exact le_of_mul_le_mul_left this hP
  have h2 : 1.3 * b * ε ≤ 1.3 * b * (11 / 10 * tol) := by gcongr
  have h3 : g * (1 + (2 + b * X) / α / r0) * a ≤ g * ((T + 21 / 4) / α) := by
    rw [mul_assoc]
    refine mul_le_mul_of_nonneg_left ?_ hg
    calc (1 + (2 + b * X) / α / r0) * a ≤ (1 + (2 + b * X) / α / r0) * r0 := by
          refine mul_le_mul_of_nonneg_left ha ?_
          rw [hbX]; positivity
      _ = (α * r0 + (T + 4)) / α := by rw [hbX]; field_simp; ring
      _ ≤ _ := div_le_div_of_nonneg_right (by linarith) hα.le
  have h4 : g * ((r0 * X + s * ((2 + b * X) / α)) / w) * c ≤ g * ((3 * T + 9) / α) := by
    rw [mul_assoc]
    refine mul_le_mul_of_nonneg_left ?_ hg
    have hk : 0 ≤ (r0 * X + s * ((2 + b * X) / α)) / w := by rw [hbX]; positivity
    calc (r0 * X + s * ((2 + b * X) / α)) / w * c ≤ (r0 * X + s * ((2 + b * X) / α)) / w * (1.3 * (w * b)) :=
          mul_le_mul_of_nonneg_left (hc.trans hV) hk
      _ = 1.3 * (α * r0 * (b * X) + s * b * (2 + b * X)) / α := by field_simp
      _ ≤ _ := by
          rw [hbX]
          have k1 : α * r0 * (T + 2) ≤ 5 / 4 * (T + 2) := by gcongr
          have k2 : s * b * (2 + (T + 2)) ≤ 1 * (2 + (T + 2)) := by gcongr
          gcongr
          norm_num
          linarith
  have h5 : g * ((T + 21 / 4) / α) + g * ((3 * T + 9) / α) ≤ Λ / α := by
    have : g * ((T + 21 / 4) / α) + g * ((3 * T + 9) / α) = (4 * T + 57 / 4) * g / α := by ring
    rw [this]
    have : (4 * T + 57 / 4) * g ≤ 4 * (T + 4) * g := by gcongr; linarith
    gcongr
    linarith
  have h6 : Λ / α ≤ b * tol / 10 := by
    rw [div_le_iff₀ hα]; linarith
  have h7 : 0 ≤ b * tol := mul_nonneg hb.le (by linarith)
  norm_num at h1 h2 ⊢
  linarith

/-- The arithmetic at the end of C68_kepler_lowecc, velocity. -/
theorem vel_arith {α b T r0 q w tol Λ ε X a c V : ℝ} (hα : 0 < α) (hb : 0 < b) (hb2 : b * b = α) (hT : 0 ≤ T)
    (hw : 0 < w) (hr0 : 0 < r0) (hq0 : 0 < q) (hq : 3 / 4 ≤ α * q) (hX : X = (T + 2) / b)
    (hε : α * b * ε ≤ 11 / 10 * (α * b * tol)) (hε0 : 0 ≤ ε) (hΛ0 : 0 ≤ Λ) (ha : a ≤ r0) (hc : c ≤ V)
    (hV : V ≤ 1.3 * (w * b)) :
    w / q ^ 2 * ε + (Λ * (w / q * X / r0) * a + Λ * (1 + (2 + b * X) / α / q) * c)
      ≤ 2 * w * α ^ 2 * tol + 4 * (T + 3) * Λ * (w * b) := by
  have hbX : b * X = T + 2 := by rw [hX]; field_simp
  have hP : 0 < α * b := by positivity
  have hX0 : 0 ≤ X := by rw [hX]; positivity
  have hqi : 1 / q ≤ 4 / 3 * α := by rw [div_le_iff₀ hq0]; linarith
  have hqi0 : 0 < 1 / q := by positivity
  have hε' : ε ≤ 11 / 10 * tol := by
    have : α * b * ε ≤ α * b * (11 / 10 * tol) := by linarith
    exact le_of_mul_le_mul_left this hP
  have h1 : w / q ^ 2 * ε ≤ 2 * w * α ^ 2 * tol := by
    have e1 : w / q ^ 2 = w * (1 / q) ^ 2 := by field_simp
    rw [e1]
    calc w * (1 / q) ^ 2 * ε ≤ w * (4 / 3 * α) ^ 2 * (11 / 10 * tol) := by gcongr
      _ = 88 / 45 * (w * α ^ 2 * tol) := by ring
      _ ≤ _ := by
        have : 0 ≤ tol := by linarith
        have : 0 ≤ w * α ^ 2 * tol := by positivity
        linarith
  have h2 : Λ * (w / q * X / r0) * a ≤ Λ * (w * (4 / 3 * b * (T + 2))) := by
    rw [mul_assoc]
    refine mul_le_mul_of_nonneg_left ?_ hΛ0
    calc w / q * X / r0 * a ≤ w / q * X / r0 * r0 := by gcongr
      _ = w * (1 / q) * X := by field_simp
      _ ≤ w * (4 / 3 * α) * X := by gcongr
      _ = w * (4 / 3 * b * (b * X)) := by rw [← hb2]; ring
      _ = _ := by rw [hbX]
  have h3 : Λ * (1 + (2 + b * X) / α / q) * c ≤ Λ * ((1 + 4 / 3 * (T + 4)) * (1.3 * (w * b))) := by
    rw [mul_assoc, hbX]
    refine mul_le_mul_of_nonneg_left ?_ hΛ0
    have e1 : (2 + (T + 2)) / α / q ≤ 4 / 3 * (T + 4) := by
      rw [div_div, div_le_iff₀ (by positivity)]
      have : 4 / 3 * (T + 4) * (3 / 4) ≤ 4 / 3 * (T + 4) * (α * q) := by gcongr
      linarith
    calc (1 + (2 + (T + 2)) / α / q) * c ≤ (1 + (2 + (T + 2)) / α / q) * (1.3 * (w * b)) :=
          mul_le_mul_of_nonneg_left (hc.trans hV) (by positivity)
      _ ≤ _ := by gcongr
  have h4 : Λ * (w * (4 / 3 * b * (T + 2))) + Λ * ((1 + 4 / 3 * (T + 4)) * (1.3 * (w * b)))
      ≤ 4 * (T + 3) * Λ * (w * b) := by
    have h5 : 0 ≤ Λ * (w * b) := by positivity
    have h6 : Λ * (w * (4 / 3 * b * (T + 2))) + Λ * ((1 + 4 / 3 * (T + 4)) * (1.3 * (w * b)))
      = (4 / 3 * (T + 2) + 1.3 * (1 + 4 / 3 * (T + 4))) * (Λ * (w * b)) := by ring
    rw [h6, show 4 * (T + 3) * Λ * (w * b) = 4 * (T + 3) * (Λ * (w * b)) by ring]
    refine mul_le_mul_of_nonneg_right ?_ h5
    norm_num
    linarith
  linarith

include hF hmu hh hα he in
/-- C68, `kepler` in rounded arithmetic on an ellipse of eccentricity at most 1/4. `T` is the advance of the mean anomaly,
`Λ = γ_n` with `n = 10 (T + 3)(L + 178) + L + 179` the rounding level. If `Λ` is ten times below the (dimensionless)
tolerance, `kepler` returns, every component of the position is within `1.6 √α tol` of the exact motion, and every component
of the velocity within `2 √mu α² tol + 4 (T + 3) Λ √(mu α)`. -/
theorem C68_kepler_lowecc (hN : lossN L (advance r v mu t) * u ≤ 1 / 2000)
    (ht1 : 10 * gam u (lossN L (advance r v mu t))
      ≤ alphaOf r.re v.re mu.val * Real.sqrt (alphaOf r.re v.re mu.val) * (defaultTol : Rnd F).val)
    (ht2 : 1 / 10 ^ 13 ≤ alphaOf r.re v.re mu.val * Real.sqrt (alphaOf r.re v.re mu.val) * (defaultTol : Rnd F).val) :
    let b := Real.sqrt (alphaOf r.re v.re mu.val)
    let T := advance r v mu t
    let εp := 1.6 * b * (defaultTol : Rnd F).val
    let εv := 2 * Real.sqrt mu.val * alphaOf r.re v.re mu.val ^ 2 * (defaultTol : Rnd F).val
      + 4 * (T + 3) * gam u (lossN L T) * (Real.sqrt mu.val * b)
    let X := exactProp r.re v.re mu.val t.val
    ∃ R V, kepler [t] r v mu = some ([R], [V]) ∧
      |R.x.val - X.1.x| ≤ εp ∧ |R.y.val - X.1.y| ≤ εp ∧ |R.z.val - X.1.z| ≤ εp ∧
      |V.x.val - X.2.x| ≤ εv ∧ |V.y.val - X.2.y| ≤ εv ∧ |V.z.val - X.2.z| ≤ εv := by
  intro b T εp εv X
  have hu0 := hF.u_pos
  have hL1 := hF.one_le
  have hT0 : 0 ≤ T := advance_nonneg (t := t) hα
  obtain ⟨g0, g1, g2, g3, g4⟩ := lossN_le hF hT0 hN
  obtain ⟨f1, f2, f3, f4, f5, f6⟩ := lossN_facts hL1 hT0
  obtain ⟨a1, a2, a3, a4, a5, a6, a7⟩ := lowecc hmu hh hα he
  obtain ⟨k, chi, chip, hk, hrun, hres⟩ := C68_uni_stops hF hmu hh hα he hN ht1 ht2 (max_iter := 50)
  have hx := chi_of_res hmu hh hα he hres
  have hb0 : 0 < b := Real.sqrt_pos.2 hα
  have hb2 : b * b = alphaOf r.re v.re mu.val := Real.mul_self_sqrt hα.le
  have hxX : |chi.val| ≤ (T + 2) / b := by rw [le_div_iff₀ hb0]; linarith
  have h5u : 1000 * u ≤ 1 / 2000 := (mul_le_mul_of_nonneg_right f4 hu0.le).trans hN
  obtain ⟨R, V, hkep, hpos, hvel⟩ := C68_kepler_elliptic hF (c := 5) hmu hh hα a5 (by linarith) hrun (by omega) hxX
  have hKe : 32 * 5 + L + 10 = L + 170 := by ring
  rw [hKe] at hpos hvel
  have hw0 : 0 < Real.sqrt mu.val := Real.sqrt_pos.2 hmu
  have hr0 : 0 < V3.norm r.re := (norm_pos _).2 (pos_ne hmu hh)
  have hq0 := qOf_pos hmu hh
  have hs0 : 0 ≤ sMag r.re v.re mu.val := div_nonneg (mul_nonneg hr0.le (V3.norm_nonneg _)) (Real.sqrt_nonneg _)
  have hk9 : (L + 170 + 9) * u < 1 := (mul_le_mul_of_nonneg_right f1 hu0.le).trans_lt g2
  have hk11 : (L + 170 + 11) * u < 1 := by
    have k1 : 1 * (L + 170 + 11) ≤ 4 * (T + 4) * (L + 170 + 11) :=
      mul_le_mul_of_nonneg_right (by linarith) (by linarith)
    have := mul_le_mul_of_nonneg_right (k1.trans f6) hu0.le
    linarith
  have hgn := gam_nonneg hF (k := L + 170 + 9) (by linarith) hk9
  have hg11 := gam_nonneg hF (k := L + 170 + 11) (by linarith) hk11
  have hgΛ : 4 * (T + 4) * gam u (L + 170 + 11) ≤ gam u (lossN L T) := gam_mul_le hu0 (by linarith) (by linarith) f6 g2
  have hy : b * ((T + 2) / b) = T + 2 := by field_simp
  set α := alphaOf r.re v.re mu.val
  set r0 := V3.norm r.re
  set w := Real.sqrt mu.val
  set ε := (defaultTol : Rnd F).val + gam u (L + 170 + 9) * (r0 * ((T + 2) / b)
    + r0 * V3.norm v.re / w * ((2 + b * ((T + 2) / b)) / α) + 2 * ((T + 2) / b) / α + w * |t.val|) with hεd
  have hP : 0 < α * b := by positivity
  have htol : 0 < (defaultTol : Rnd F).val := by
    have : 0 < α * b * (defaultTol : Rnd F).val := lt_of_lt_of_le (by norm_num) ht2
    exact pos_of_mul_pos_right this hP.le
  have hTd : T = α * b * (w * |t.val|) := rfl
  have hsd : sMag r.re v.re mu.val = r0 * V3.norm v.re / w := rfl
  rw [hsd] at a3 hs0
  have hε0 : 0 ≤ ε := by
    have : 0 ≤ r0 * ((T + 2) / b) + r0 * V3.norm v.re / w * ((2 + b * ((T + 2) / b)) / α) + 2 * ((T + 2) / b) / α
        + w * |t.val| := by rw [hy]; positivity
    have := mul_nonneg hgn this
    linarith
  have hε : α * b * ε ≤ 11 / 10 * (α * b * (defaultTol : Rnd F).val) := by
    have e1 : α * b * ε = α * b * (defaultTol : Rnd F).val + (α * r0 * (T + 2) + r0 * V3.norm v.re / w * b * (T + 4)
        + 2 * (T + 2) + T) * gam u (L + 170 + 9) := by
      have e2 : α * b * (r0 * ((T + 2) / b) + r0 * V3.norm v.re / w * ((2 + b * ((T + 2) / b)) / α)
          + 2 * ((T + 2) / b) / α + w * |t.val|) = α * r0 * (T + 2) + r0 * V3.norm v.re / w * b * (T + 4)
        + 2 * (T + 2) + T := by
        exact eps_arith hα.ne' hy hTd
      rw [hεd, mul_add, ← e2]; ring
    rw [e1]
    have e3 : (α * r0 * (T + 2) + r0 * V3.norm v.re / w * b * (T + 4) + 2 * (T + 2) + T) * gam u (L + 170 + 9)
        ≤ 6 * (T + 2) * gam u (L + 170 + 9) := by
      refine mul_le_mul_of_nonneg_right ?_ hgn
      have k1 : α * r0 * (T + 2) ≤ 5 / 4 * (T + 2) := mul_le_mul_of_nonneg_right a2 (by linarith)
      have k2 : r0 * V3.norm v.re / w * b * (T + 4) ≤ 1 * (T + 4) := mul_le_mul_of_nonneg_right a3 (by linarith)
      linarith
    have e4 := gam_mul_le hu0 (by linarith : 0 ≤ L + 170 + 9) (by linarith : 1 ≤ 6 * (T + 2)) f2 g2
    linarith
  have hv0 := V3.norm_nonneg v.re
  have P := fun (a c : ℝ) (ha : a ≤ r0) (hc : c ≤ V3.norm v.re) =>
    pos_arith (X := (T + 2) / b) hα hb0 hb2 hT0 hw0 hr0 hs0 a2 a3 rfl hε hε0 a7 hg11 hgΛ ht1 ha hc a6
  have hvel' := hvel (5 * (T + 3)) (by
      have : α * (r0 * (1 + b * ((T + 2) / b)) + r0 * V3.norm v.re / w * ((T + 2) / b) + (2 + b * ((T + 2) / b)) / α)
          ≤ α * (5 * (T + 3) * qOf r.re v.re mu.val) := by
        have e1 : α * (r0 * (1 + b * ((T + 2) / b)) + r0 * V3.norm v.re / w * ((T + 2) / b)
            + (2 + b * ((T + 2) / b)) / α)
            = α * r0 * (T + 3) + r0 * V3.norm v.re / w * b * (T + 2) + (T + 4) := by
          rw [hy]
          have : α * (r0 * V3.norm v.re / w * ((T + 2) / b)) = r0 * V3.norm v.re / w * b * (T + 2) := by
            rw [← hb2]; field_simp
          rw [mul_add, mul_add, this]; field_simp; ring
        rw [e1]
        have k1 : α * r0 * (T + 3) ≤ 5 / 4 * (T + 3) := mul_le_mul_of_nonneg_right a2 (by linarith)
        have k2 : r0 * V3.norm v.re / w * b * (T + 2) ≤ 1 * (T + 2) := mul_le_mul_of_nonneg_right a3 (by linarith)
        have k3 : 5 * (T + 3) * (3 / 4) ≤ 5 * (T + 3) * (α * qOf r.re v.re mu.val) :=
          mul_le_mul_of_nonneg_left a4 (by linarith)
        linarith
      exact le_of_mul_le_mul_left this hα) (by
      have := mul_le_mul_of_nonneg_right f3 hu0.le
      linarith)
  have hNe : L + 170 + 2 * (5 * (T + 3)) * (L + 170 + 8) + 9 = lossN L T := by unfold lossN; ring
  rw [hNe] at hvel'
  have Q := fun (a c : ℝ) (ha : a ≤ r0) (hc : c ≤ V3.norm v.re) =>
    vel_arith (X := (T + 2) / b) hα hb0 hb2 hT0 hw0 hr0 hq0 a4 rfl hε hε0 g0 ha hc a6
  obtain ⟨p1, p2, p3⟩ := hpos
  obtain ⟨q1, q2, q3⟩ := hvel'
  exact ⟨R, V, hkep, p1.trans (P _ _ (V3.abs_x_le _) (V3.abs_x_le _)), p2.trans (P _ _ (V3.abs_y_le _) (V3.abs_y_le _)),
    p3.trans (P _ _ (V3.abs_z_le _) (V3.abs_z_le _)), q1.trans (Q _ _ (V3.abs_x_le _) (V3.abs_x_le _)),
    q2.trans (Q _ _ (V3.abs_y_le _) (V3.abs_y_le _)), q3.trans (Q _ _ (V3.abs_z_le _) (V3.abs_z_le _))⟩

end
end
end Adx
