import Verif.Lemmas.Anomaly
import Verif.Props.C05

/-! # C53: the universal and the classical Kepler equations describe the same motion

`kepler_equ_uni` with the values `kepler` computes for a state, written in the eccentric (hyperbolic,
parabolic) anomaly, is `kepler_equ_elps` (`kepler_equ_hypb`, Barker's equation). -/

namespace Adx
open V3 Spec

variable {r v : V3 ℝ} {mu : ℝ}

/-! ### ellipses -/

/-- C53: every state on an ellipse has an eccentric anomaly in `[0, 2π)`. -/
theorem C53_eccentric_exists (hmu : 0 < mu) (hh : angular_momentum r v ≠ ⟨0, 0, 0⟩) (ha : 0 < aOf r v mu) :
    ∃ E, 0 ≤ E ∧ E < 2 * Real.pi ∧ IsEccentric mu (aOf r v mu) (eOf r v mu) r v E := by
  have h1 := pOf_inv hmu hh
  have h2 := pOf_alpha hmu hh
  rw [alphaOf_elps ha] at h1 h2
  have hb : 0 < Real.sqrt (aOf r v mu) := Real.sqrt_pos.2 ha
  set b := Real.sqrt (aOf r v mu) with hbd
  obtain ⟨E, hE0, hE1, hc, hs⟩ := exists_angle (1 - V3.norm r / b ^ 2) (sigma_fn r v mu / b)
  have he : Real.sqrt ((1 - V3.norm r / b ^ 2) ^ 2 + (sigma_fn r v mu / b) ^ 2) = eOf r v mu := by
    rw [show (1 - V3.norm r / b ^ 2) ^ 2 + (sigma_fn r v mu / b) ^ 2 = eOf r v mu ^ 2 by
      have : b ≠ 0 := hb.ne'
      field_simp at h1 h2 ⊢
      linear_combination (-1) * h1 - b ^ 2 * h2]
    exact Real.sqrt_sq (norm_nonneg _)
  rw [he] at hc hs
  refine ⟨E, hE0, hE1, (isEccentric_iff hmu ha).2 ⟨?_, ?_⟩⟩
  · rw [← hbd, ← hc]; field_simp; ring
  · rw [← hbd, ← hs]; field_simp

/-- C53: it is unique up to whole turns unless the orbit is a circle. -/
theorem C53_eccentric_unique (hmu : 0 < mu) (ha : 0 < aOf r v mu) (he : eOf r v mu ≠ 0) {E E' : ℝ}
    (h : IsEccentric mu (aOf r v mu) (eOf r v mu) r v E)
    (h' : IsEccentric mu (aOf r v mu) (eOf r v mu) r v E') : ∃ k : ℤ, E' = E + 2 * Real.pi * k := by
  rw [isEccentric_iff hmu ha] at h h'
  have hb : Real.sqrt (aOf r v mu) ≠ 0 := (Real.sqrt_pos.2 ha).ne'
  have hc : Real.cos E = Real.cos E' := by
    have := h.1.symm.trans h'.1
    have := mul_left_cancel₀ (pow_ne_zero 2 hb) this
    exact mul_left_cancel₀ he (by linarith)
  have hs : Real.sin E = Real.sin E' := by
    have := h.2.symm.trans h'.2
    exact mul_left_cancel₀ he (mul_left_cancel₀ hb this)
  have : (E : Real.Angle) = E' := Real.Angle.cos_sin_inj hc hs
  rw [Real.Angle.angle_eq_iff_two_pi_dvd_sub] at this
  obtain ⟨k, hk⟩ := this
  exact ⟨-k, by push_cast; linarith⟩

/-- C53: the universal Kepler equation of a state on an ellipse is Kepler's equation, with the universal
anomaly `√a (E - E0)` and the mean anomaly advancing by `mean_anomaly_elps`; its derivative is `dE`. -/
theorem C53_elliptic_equation (hmu : 0 < mu) (ha : 0 < aOf r v mu) {E0 : ℝ}
    (hE0 : IsEccentric mu (aOf r v mu) (eOf r v mu) r v E0) (t E : ℝ) :
    kepler_equ_uni (Real.sqrt (aOf r v mu) * (E - E0)) (1 / aOf r v mu) (V3.norm r) (sigma_fn r v mu) t mu
      = Real.sqrt (aOf r v mu) ^ 3 * kepler_equ_elps E (eOf r v mu)
          (E0 - eOf r v mu * Real.sin E0 + mean_anomaly_elps (aOf r v mu) t mu) ∧
    dchi (Real.sqrt (aOf r v mu) * (E - E0)) (1 / aOf r v mu) (V3.norm r) (sigma_fn r v mu)
      = aOf r v mu * dE E (eOf r v mu) := by
  have hb : 0 < Real.sqrt (aOf r v mu) := Real.sqrt_pos.2 ha
  obtain ⟨h1, h2⟩ := (isEccentric_iff hmu ha).1 hE0
  have hα : 1 / aOf r v mu = 1 / Real.sqrt (aOf r v mu) ^ 2 := by rw [Real.sq_sqrt ha.le]
  obtain ⟨k1, -, k3⟩ := kep_elps_change hb (eOf r v mu) E0 E
  constructor
  · rw [kep_uni_eq, hα, h1, h2, k3, kep_elps_eq, mean_anomaly_elps, sqrt_real,
      show mu / aOf r v mu ^ 3 = mu / (Real.sqrt (aOf r v mu) ^ 3) ^ 2 by
        rw [← pow_mul, show 3 * 2 = 2 * 3 by norm_num, pow_mul, Real.sq_sqrt ha.le],
      Real.sqrt_div hmu.le, Real.sqrt_sq (by positivity)]
    field_simp
    ring
  · rw [dchi_eq, hα, h1, h2, k1, dE_eq, Real.sq_sqrt ha.le]

/-- C53: the eccentric anomaly of the exactly propagated state is the solution of Kepler's equation for
the advanced mean anomaly. -/
theorem C53_elliptic_motion (hmu : 0 < mu) (hh : angular_momentum r v ≠ ⟨0, 0, 0⟩) (ha : 0 < aOf r v mu) {E0 : ℝ}
    (hE0 : IsEccentric mu (aOf r v mu) (eOf r v mu) r v E0) {t E : ℝ}
    (hE : kepler_equ_elps E (eOf r v mu)
      (E0 - eOf r v mu * Real.sin E0 + mean_anomaly_elps (aOf r v mu) t mu) = 0) :
    IsEccentric mu (aOf r v mu) (eOf r v mu) (exactProp r v mu t).1 (exactProp r v mu t).2 E ∧
      aOf (exactProp r v mu t).1 (exactProp r v mu t).2 mu = aOf r v mu ∧
      eOf (exactProp r v mu t).1 (exactProp r v mu t).2 mu = eOf r v mu ∧
      exactChi r v mu t = Real.sqrt (aOf r v mu) * (E - E0) := by
  have hb : 0 < Real.sqrt (aOf r v mu) := Real.sqrt_pos.2 ha
  have hroot : IsRoot r v mu t (Real.sqrt (aOf r v mu) * (E - E0)) := by
    have := (C53_elliptic_equation hmu ha hE0 t E).1
    rw [hE, mul_zero] at this
    exact this
  have hχ := (exactChi_unique hmu hh hroot).symm
  obtain ⟨h1, h2⟩ := (isEccentric_iff hmu ha).1 hE0
  obtain ⟨k1, k2, -⟩ := kep_elps_change hb (eOf r v mu) E0 E
  refine ⟨(isEccentric_iff hmu ha).2 ⟨?_, ?_⟩, step_aOf hmu hh t, (exactProp_pe hmu hh t).2, hχ⟩
  · rw [norm_exactProp hmu hh, hχ, radOf, alphaOf_elps ha, h1, h2, k1]
  · rw [sigma_exactProp hmu hh, hχ, sigOf, alphaOf_elps ha, h1, h2, k2]

/-- C53: with the true anomaly `f` the library computes, `cos f = (cos E - e)/(1 - e cos E)`. -/
theorem C53_true_anomaly (hmu : 0 < mu) (hh : angular_momentum r v ≠ ⟨0, 0, 0⟩) (ha : 0 < aOf r v mu)
    (he : eOf r v mu ≠ 0) {E : ℝ} (hE : IsEccentric mu (aOf r v mu) (eOf r v mu) r v E) :
    Real.cos (true_anomaly r (eccentricity_vector r v mu))
      = (Real.cos E - eOf r v mu) / (1 - eOf r v mu * Real.cos E) := by
  have hO := C05_orbit_equation hh hmu
  have hp := pOf_pos hh hmu
  have hpa := pOf_alpha hmu hh
  have hα : alphaOf r v mu = 1 / aOf r v mu := rfl
  rw [hα] at hpa
  have hr := (norm_pos r).2 (pos_ne hmu hh)
  obtain ⟨h1, -⟩ := (isEccentric_iff hmu ha).1 hE
  rw [Real.sq_sqrt ha.le] at h1
  simp only [equ_of_orbit, cos_real, Nat.cast_one] at hO
  have hd : 1 + eOf r v mu * Real.cos (true_anomaly r (eccentricity_vector r v mu)) ≠ 0 := by
    intro h0; rw [h0, div_zero] at hO; linarith
  have h2 : 1 - eOf r v mu * Real.cos E ≠ 0 := by
    intro h0; rw [h0, mul_zero] at h1; linarith
  rw [div_eq_iff hd] at hO
  rw [eq_div_iff h2]
  have hpe : pOf r v mu = aOf r v mu * (1 - eOf r v mu ^ 2) := by field_simp at hpa; linarith
  rw [hpe, h1] at hO
  have h3 : aOf r v mu * eOf r v mu ≠ 0 := mul_ne_zero ha.ne' he
  apply mul_left_cancel₀ h3
  linear_combination -hO

/-! ### hyperbolas -/

/-- C53: every state on a hyperbola has exactly one hyperbolic anomaly. -/
theorem C53_hyperbolic_existsUnique (hmu : 0 < mu) (hh : angular_momentum r v ≠ ⟨0, 0, 0⟩) (ha : aOf r v mu < 0) :
    ∃! H, IsHyperbolic mu (aOf r v mu) (eOf r v mu) r v H := by
  have h1 := pOf_inv hmu hh
  have h2 := pOf_alpha hmu hh
  have hp := pOf_pos hh hmu
  rw [alphaOf_hypb ha] at h1 h2
  have hb : 0 < Real.sqrt (-aOf r v mu) := Real.sqrt_pos.2 (by linarith)
  have he0 : 0 ≤ eOf r v mu := norm_nonneg _
  have hrn := (norm_pos r).2 (pos_ne hmu hh)
  simp only [isHyperbolic_iff hmu ha]
  set b := Real.sqrt (-aOf r v mu) with hbd
  set e := eOf r v mu
  have he : 1 < e := by
    have : 0 < pOf r v mu * (1 / b ^ 2) := by positivity
    nlinarith
  have hid : (1 + V3.norm r / b ^ 2) ^ 2 = e ^ 2 + (sigma_fn r v mu / b) ^ 2 := by
    have : b ≠ 0 := hb.ne'
    field_simp at h1 h2 ⊢
    linear_combination h1 - b ^ 2 * h2
  refine ⟨Real.arsinh (sigma_fn r v mu / (b * e)), ⟨?_, ?_⟩, ?_⟩
  · have hcosh : e * Real.cosh (Real.arsinh (sigma_fn r v mu / (b * e))) = 1 + V3.norm r / b ^ 2 := by
      rw [Real.cosh_arsinh]
      have : e * Real.sqrt (1 + (sigma_fn r v mu / (b * e)) ^ 2) = Real.sqrt ((1 + V3.norm r / b ^ 2) ^ 2) := by
        rw [hid, ← Real.sqrt_sq he0, ← Real.sqrt_mul (sq_nonneg e), Real.sqrt_sq he0]
        congr 1
        field_simp
      rw [this, Real.sqrt_sq (by positivity)]
    rw [hcosh]; field_simp; ring
  · rw [Real.sinh_arsinh]; field_simp
  · rintro H ⟨-, hH⟩
    have : Real.sinh H = sigma_fn r v mu / (b * e) := by rw [hH]; field_simp
    rw [← this, Real.arsinh_sinh]

/-- C53: the universal Kepler equation of a state on a hyperbola is the hyperbolic Kepler equation. -/
theorem C53_hyperbolic_equation (hmu : 0 < mu) (ha : aOf r v mu < 0) {H0 : ℝ}
    (hH0 : IsHyperbolic mu (aOf r v mu) (eOf r v mu) r v H0) (t H : ℝ) :
    kepler_equ_uni (Real.sqrt (-aOf r v mu) * (H - H0)) (1 / aOf r v mu) (V3.norm r) (sigma_fn r v mu) t mu
      = Real.sqrt (-aOf r v mu) ^ 3 * kepler_equ_hypb H (eOf r v mu)
          (eOf r v mu * Real.sinh H0 - H0 + mean_anomaly_hypb (aOf r v mu) t mu) ∧
    dchi (Real.sqrt (-aOf r v mu) * (H - H0)) (1 / aOf r v mu) (V3.norm r) (sigma_fn r v mu)
      = -aOf r v mu * dH H (eOf r v mu) := by
  have hna : 0 < -aOf r v mu := by linarith
  have hb : 0 < Real.sqrt (-aOf r v mu) := Real.sqrt_pos.2 hna
  obtain ⟨h1, h2⟩ := (isHyperbolic_iff hmu ha).1 hH0
  have hα : 1 / aOf r v mu = -(1 / Real.sqrt (-aOf r v mu) ^ 2) := alphaOf_hypb ha
  obtain ⟨k1, -, k3⟩ := kep_hypb_change hb (eOf r v mu) H0 H
  constructor
  · rw [kep_uni_eq, hα, h1, h2, k3, kep_hypb_eq, mean_anomaly_hypb, sqrt_real,
      show mu / -aOf r v mu ^ 3 = mu / (Real.sqrt (-aOf r v mu) ^ 3) ^ 2 by
        rw [← pow_mul, show 3 * 2 = 2 * 3 by norm_num, pow_mul, Real.sq_sqrt hna.le]; congr 1; ring,
      Real.sqrt_div hmu.le, Real.sqrt_sq (by positivity)]
    field_simp
    ring
  · rw [dchi_eq, hα, h1, h2, k1, dH_eq, Real.sq_sqrt hna.le]

/-- C53: the hyperbolic anomaly of the exactly propagated state is the solution of the hyperbolic Kepler
equation for the advanced mean anomaly. -/
theorem C53_hyperbolic_motion (hmu : 0 < mu) (hh : angular_momentum r v ≠ ⟨0, 0, 0⟩) (ha : aOf r v mu < 0) {H0 : ℝ}
    (hH0 : IsHyperbolic mu (aOf r v mu) (eOf r v mu) r v H0) {t H : ℝ}
    (hH : kepler_equ_hypb H (eOf r v mu)
      (eOf r v mu * Real.sinh H0 - H0 + mean_anomaly_hypb (aOf r v mu) t mu) = 0) :
    IsHyperbolic mu (aOf r v mu) (eOf r v mu) (exactProp r v mu t).1 (exactProp r v mu t).2 H ∧
      aOf (exactProp r v mu t).1 (exactProp r v mu t).2 mu = aOf r v mu ∧
      eOf (exactProp r v mu t).1 (exactProp r v mu t).2 mu = eOf r v mu ∧
      exactChi r v mu t = Real.sqrt (-aOf r v mu) * (H - H0) := by
  have hb : 0 < Real.sqrt (-aOf r v mu) := Real.sqrt_pos.2 (by linarith)
  have hroot : IsRoot r v mu t (Real.sqrt (-aOf r v mu) * (H - H0)) := by
    have := (C53_hyperbolic_equation hmu ha hH0 t H).1
    rw [hH, mul_zero] at this
    exact this
  have hχ := (exactChi_unique hmu hh hroot).symm
  obtain ⟨h1, h2⟩ := (isHyperbolic_iff hmu ha).1 hH0
  obtain ⟨k1, k2, -⟩ := kep_hypb_change hb (eOf r v mu) H0 H
  refine ⟨(isHyperbolic_iff hmu ha).2 ⟨?_, ?_⟩, step_aOf hmu hh t, (exactProp_pe hmu hh t).2, hχ⟩
  · rw [norm_exactProp hmu hh, hχ, radOf, alphaOf_hypb ha, h1, h2, k1]
  · rw [sigma_exactProp hmu hh, hχ, sigOf, alphaOf_hypb ha, h1, h2, k2]

/-! ### parabolas -/

/-- C53: for a parabolic state (`alpha = 0`) the universal Kepler equation is Barker's equation in
`D = r·v/√mu`, the universal anomaly being the increase of `D`. -/
theorem C53_parabolic_equation (hmu : 0 < mu) (hh : angular_momentum r v ≠ ⟨0, 0, 0⟩)
    (hpar : V3.norm v ^ 2 / 2 - mu / V3.norm r = 0) (t D : ℝ) :
    kepler_equ_uni (D - sigma_fn r v mu) 0 (V3.norm r) (sigma_fn r v mu) t mu
      = (D ^ 3 + 3 * pOf r v mu * D) / 6
        - (sigma_fn r v mu ^ 3 + 3 * pOf r v mu * sigma_fn r v mu) / 6 - Real.sqrt mu * t := by
  have hα : alphaOf r v mu = 0 := by
    have hn := (norm_pos r).2 (pos_ne hmu hh)
    rw [alphaOf, inv_semimajor_axis, invA, ← norm_sq]
    field_simp at hpar ⊢
    linarith
  have h1 := pOf_inv hmu hh
  rw [hα] at h1
  simp only [kepler_equ_uni, ufunc1, ufunc2, ufunc3, Nat.cast_zero, lt_real, lt_irrefl, decide_false,
    Bool.false_eq_true, if_false, sqrt_real, Nat.cast_ofNat]
  rw [← h1]; ring

/-- C53: `D` of the exactly propagated parabolic state is the solution of Barker's equation. -/
theorem C53_parabolic_motion (hmu : 0 < mu) (hh : angular_momentum r v ≠ ⟨0, 0, 0⟩)
    (hpar : V3.norm v ^ 2 / 2 - mu / V3.norm r = 0) {t D : ℝ}
    (hD : (D ^ 3 + 3 * pOf r v mu * D) / 6
        - (sigma_fn r v mu ^ 3 + 3 * pOf r v mu * sigma_fn r v mu) / 6 = Real.sqrt mu * t) :
    sigma_fn (exactProp r v mu t).1 (exactProp r v mu t).2 mu = D ∧
      V3.norm (exactProp r v mu t).1 = (pOf r v mu + D ^ 2) / 2 := by
  have hα : alphaOf r v mu = 0 := by
    have hn := (norm_pos r).2 (pos_ne hmu hh)
    rw [alphaOf, inv_semimajor_axis, invA, ← norm_sq]
    field_simp at hpar ⊢
    linarith
  have hroot : IsRoot r v mu t (D - sigma_fn r v mu) := by
    rw [IsRoot, hα, C53_parabolic_equation hmu hh hpar]; linarith
  have hχ := (exactChi_unique hmu hh hroot).symm
  have h1 := pOf_inv hmu hh
  rw [hα] at h1
  constructor
  · rw [sigma_exactProp hmu hh, hχ, sigOf, sigU, hα, U_zero_right, U_zero_right]
    norm_num
  · rw [norm_exactProp hmu hh, hχ, radOf, radU, hα, U_zero_right, U_zero_right, U_zero_right]
    norm_num
    linarith

/-! ### concrete states -/

/-- Ellipse with `a = 1`, `e = 1/2` at periapsis: eccentric anomaly 0. -/
example : angular_momentum (⟨1 / 2, 0, 0⟩ : V3 ℝ) ⟨0, Real.sqrt 3, 0⟩ ≠ ⟨0, 0, 0⟩ ∧
    aOf ⟨1 / 2, 0, 0⟩ ⟨0, Real.sqrt 3, 0⟩ 1 = 1 ∧
    IsEccentric 1 1 (1 / 2) ⟨1 / 2, 0, 0⟩ ⟨0, Real.sqrt 3, 0⟩ 0 := by
  have h3 : Real.sqrt 3 ^ 2 = 3 := Real.sq_sqrt (by norm_num)
  have hn : V3.norm (⟨1 / 2, 0, 0⟩ : V3 ℝ) = 1 / 2 := by
    rw [norm_unfold, show ((1 / 2 : ℝ)) ^ 2 + 0 ^ 2 + 0 ^ 2 = (1 / 2) ^ 2 by norm_num]
    exact Real.sqrt_sq (by norm_num)
  have hv : V3.norm (⟨0, Real.sqrt 3, 0⟩ : V3 ℝ) ^ 2 = 3 := by
    rw [V3.norm_sq]; simp only [V3.dot]; nlinarith
  refine ⟨?_, ?_, ?_⟩
  · intro h
    have := congrArg V3.z h
    simp [angular_momentum, V3.cross] at this
  · rw [aOf, semimajor_axis, hn, hv]; norm_num
  · constructor
    · rw [← norm_unfold, hn]; norm_num
    · norm_num

end Adx
