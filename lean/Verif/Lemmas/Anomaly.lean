import Verif.Lemmas.Periapsis
import Verif.Spec.Anomaly

/-! # Universal functions in classical variables -/

namespace Adx
open V3 Spec

section closed
variable {b : ℝ} (hb : 0 < b)
include hb

theorem U_elps (χ : ℝ) : U 0 χ (1 / b ^ 2) = Real.cos (χ / b) ∧ U 1 χ (1 / b ^ 2) = b * Real.sin (χ / b) ∧
    U 2 χ (1 / b ^ 2) = b ^ 2 * (1 - Real.cos (χ / b)) ∧
    U 3 χ (1 / b ^ 2) = b ^ 3 * (χ / b - Real.sin (χ / b)) := by
  have hpos : 0 < 1 / b ^ 2 := by positivity
  have hs : Real.sqrt (1 / b ^ 2) = 1 / b := by
    rw [← one_div_pow, Real.sqrt_sq (by positivity)]
  have ha : 1 / b * χ = χ / b := by ring
  refine ⟨?_, ?_, ?_, ?_⟩
  · rw [← C07_ufunc0]
    simp only [ufunc0, Nat.cast_zero, lt_real, hpos, decide_true, if_true, sqrt_real, cos_real, hs, ha]
  · rw [← C07_ufunc1]
    simp only [ufunc1, Nat.cast_zero, lt_real, hpos, decide_true, if_true, sqrt_real, sin_real, hs, ha]
    field_simp
  · rw [← C07_ufunc2]
    simp only [ufunc2, Nat.cast_zero, Nat.cast_one, lt_real, hpos, decide_true, if_true, sqrt_real, cos_real, hs, ha]
    field_simp
  · rw [← C07_ufunc3]
    simp only [ufunc3, Nat.cast_zero, lt_real, hpos, decide_true, if_true, sqrt_real, sin_real, hs, ha]
    field_simp

theorem U_hypb (χ : ℝ) : U 0 χ (-(1 / b ^ 2)) = Real.cosh (χ / b) ∧
    U 1 χ (-(1 / b ^ 2)) = b * Real.sinh (χ / b) ∧
    U 2 χ (-(1 / b ^ 2)) = b ^ 2 * (Real.cosh (χ / b) - 1) ∧
    U 3 χ (-(1 / b ^ 2)) = b ^ 3 * (Real.sinh (χ / b) - χ / b) := by
  have hneg : -(1 / b ^ 2) < 0 := by have : 0 < 1 / b ^ 2 := by positivity
                                     linarith
  have hs : Real.sqrt (1 / b ^ 2) = 1 / b := by
    rw [← one_div_pow, Real.sqrt_sq (by positivity)]
  have ha : 1 / b * χ = χ / b := by ring
  have hn : ¬ (0 < -(1 / b ^ 2)) := not_lt.2 hneg.le
  refine ⟨?_, ?_, ?_, ?_⟩
  · rw [← C07_ufunc0]
    simp only [ufunc0, Nat.cast_zero, lt_real, hneg, hn, decide_true, decide_false, if_true, if_false,
      Bool.false_eq_true, sqrt_real, cosh_real, neg_neg, hs, ha]
  · rw [← C07_ufunc1]
    simp only [ufunc1, Nat.cast_zero, lt_real, hneg, hn, decide_true, decide_false, if_true, if_false,
      Bool.false_eq_true, sqrt_real, sinh_real, neg_neg, hs, ha]
    field_simp
  · rw [← C07_ufunc2]
    simp only [ufunc2, Nat.cast_zero, Nat.cast_one, lt_real, hneg, hn, decide_true, decide_false, if_true, if_false,
      Bool.false_eq_true, sqrt_real, cosh_real, neg_neg, hs, ha]
    field_simp
  · rw [← C07_ufunc3]
    simp only [ufunc3, Nat.cast_zero, lt_real, hneg, hn, decide_true, decide_false, if_true, if_false,
      Bool.false_eq_true, sqrt_real, sinh_real, neg_neg, hs, ha]
    field_simp
    ring

/-- Radius, its derivative and the time integral on an ellipse with `a = b²`, in the eccentric anomaly. -/
theorem kep_elps_change (e E0 E : ℝ) :
    radU (1 / b ^ 2) (b ^ 2 * (1 - e * Real.cos E0)) (b * (e * Real.sin E0)) (b * (E - E0))
      = b ^ 2 * (1 - e * Real.cos E) ∧
    sigU (1 / b ^ 2) (b ^ 2 * (1 - e * Real.cos E0)) (b * (e * Real.sin E0)) (b * (E - E0))
      = b * (e * Real.sin E) ∧
    kepU (1 / b ^ 2) (b ^ 2 * (1 - e * Real.cos E0)) (b * (e * Real.sin E0)) (b * (E - E0))
      = b ^ 3 * ((E - e * Real.sin E) - (E0 - e * Real.sin E0)) := by
  obtain ⟨h0, h1, h2, h3⟩ := U_elps hb (b * (E - E0))
  have hx : b * (E - E0) / b = E - E0 := by field_simp
  rw [hx] at h0 h1 h2 h3
  have hc : Real.cos E = Real.cos E0 * Real.cos (E - E0) - Real.sin E0 * Real.sin (E - E0) := by
    rw [← Real.cos_add]; congr 1; ring
  have hs : Real.sin E = Real.sin E0 * Real.cos (E - E0) + Real.cos E0 * Real.sin (E - E0) := by
    rw [← Real.sin_add]; congr 1; ring
  refine ⟨?_, ?_, ?_⟩
  · rw [radU, h0, h1, h2, hc]; ring
  · rw [sigU, h0, h1, hs]; field_simp; ring
  · rw [kepU, h1, h2, h3, hs]; ring

/-- The same on a hyperbola with `a = -b²`. -/
theorem kep_hypb_change (e H0 H : ℝ) :
    radU (-(1 / b ^ 2)) (b ^ 2 * (e * Real.cosh H0 - 1)) (b * (e * Real.sinh H0)) (b * (H - H0))
      = b ^ 2 * (e * Real.cosh H - 1) ∧
    sigU (-(1 / b ^ 2)) (b ^ 2 * (e * Real.cosh H0 - 1)) (b * (e * Real.sinh H0)) (b * (H - H0))
      = b * (e * Real.sinh H) ∧
    kepU (-(1 / b ^ 2)) (b ^ 2 * (e * Real.cosh H0 - 1)) (b * (e * Real.sinh H0)) (b * (H - H0))
      = b ^ 3 * ((e * Real.sinh H - H) - (e * Real.sinh H0 - H0)) := by
  obtain ⟨h0, h1, h2, h3⟩ := U_hypb hb (b * (H - H0))
  have hx : b * (H - H0) / b = H - H0 := by field_simp
  rw [hx] at h0 h1 h2 h3
  have hc : Real.cosh H = Real.cosh H0 * Real.cosh (H - H0) + Real.sinh H0 * Real.sinh (H - H0) := by
    rw [← Real.cosh_add]; congr 1; ring
  have hs : Real.sinh H = Real.sinh H0 * Real.cosh (H - H0) + Real.cosh H0 * Real.sinh (H - H0) := by
    rw [← Real.sinh_add]; congr 1; ring
  refine ⟨?_, ?_, ?_⟩
  · rw [radU, h0, h1, h2, hc]; ring
  · rw [sigU, h0, h1, hs]; field_simp; ring
  · rw [kepU, h1, h2, h3, hs]; ring

end closed

theorem norm_unfold (r : V3 ℝ) : V3.norm r = Real.sqrt (r.x ^ 2 + r.y ^ 2 + r.z ^ 2) := by
  simp only [V3.norm, V3.dot, sqrt_real]; congr 1; ring

theorem alphaOf_elps {r v : V3 ℝ} {mu : ℝ} (ha : 0 < aOf r v mu) :
    alphaOf r v mu = 1 / Real.sqrt (aOf r v mu) ^ 2 := by
  rw [Real.sq_sqrt ha.le]; rfl

theorem alphaOf_hypb {r v : V3 ℝ} {mu : ℝ} (ha : aOf r v mu < 0) :
    alphaOf r v mu = -(1 / Real.sqrt (-aOf r v mu) ^ 2) := by
  rw [Real.sq_sqrt (by linarith), one_div_neg_eq_neg_one_div, neg_neg]; rfl

section
variable {r v : V3 ℝ} {mu : ℝ} (hmu : 0 < mu)
include hmu

theorem isEccentric_iff {a e E : ℝ} (ha : 0 < a) : IsEccentric mu a e r v E ↔
    V3.norm r = Real.sqrt a ^ 2 * (1 - e * Real.cos E) ∧ sigma_fn r v mu = Real.sqrt a * (e * Real.sin E) := by
  have hs : 0 < Real.sqrt mu := Real.sqrt_pos.2 hmu
  have hd : r.x * v.x + r.y * v.y + r.z * v.z = Real.sqrt mu * sigma_fn r v mu := sigma_rv hmu
  rw [IsEccentric, ← norm_unfold, Real.sq_sqrt ha.le, Real.sqrt_mul hmu.le, hd, mul_assoc]
  refine and_congr_right fun _ => ?_
  exact mul_right_inj' hs.ne'

theorem isHyperbolic_iff {a e H : ℝ} (ha : a < 0) : IsHyperbolic mu a e r v H ↔
    V3.norm r = Real.sqrt (-a) ^ 2 * (e * Real.cosh H - 1) ∧
      sigma_fn r v mu = Real.sqrt (-a) * (e * Real.sinh H) := by
  have hs : 0 < Real.sqrt mu := Real.sqrt_pos.2 hmu
  have hd : r.x * v.x + r.y * v.y + r.z * v.z = Real.sqrt mu * sigma_fn r v mu := sigma_rv hmu
  rw [IsHyperbolic, ← norm_unfold, Real.sq_sqrt (by linarith), ← mul_neg, Real.sqrt_mul hmu.le, hd, mul_assoc]
  refine and_congr ?_ (mul_right_inj' hs.ne')
  rw [show a * (1 - e * Real.cosh H) = -a * (e * Real.cosh H - 1) by ring]

variable (hh : angular_momentum r v ≠ ⟨0, 0, 0⟩)
include hh

theorem step_aOf (t : ℝ) : aOf (exactProp r v mu t).1 (exactProp r v mu t).2 mu = aOf r v mu := by
  have h := step_invA (χ := exactChi r v mu t) (pos_ne hmu hh) hmu (radOf_pos hmu hh).ne'
  have h1 : invA (exactProp r v mu t).1 (exactProp r v mu t).2 mu = invA r v mu := h
  rw [← inv_semimajor_axis, ← inv_semimajor_axis] at h1
  have := congrArg (fun x => 1 / x) h1
  simpa [aOf] using this

theorem sigma_exactProp (t : ℝ) :
    sigma_fn (exactProp r v mu t).1 (exactProp r v mu t).2 mu = sigOf r v mu (exactChi r v mu t) :=
  step_sigma (pos_ne hmu hh) hmu (radOf_pos hmu hh).ne'

end
end Adx
