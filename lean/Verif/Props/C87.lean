import Verif.Props.C32
import Verif.Props.C53
import Verif.Props.C65
import Mathlib.Analysis.SpecialFunctions.Trigonometric.InverseDeriv
import Verif.Props.C21
import Verif.Props.C19
import Verif.Props.C10

/-! # C87: the elements along the motion

Two ways to propagate: `kepler` on the state, or Kepler's equation on the anomaly with the other elements held fixed and `coe2rv` at the
end. They agree. What `rv2coe` returns along the motion: five constant elements and a true anomaly that runs backwards on the way in. -/

namespace Adx
open V3 Spec

section
variable {p e mu : ℝ} (hp : 0 < p) (he : 0 ≤ e) (hmu : 0 < mu) (i Ω ω : ℝ)
include hp he hmu

omit hp hmu in
theorem peri_pos : 0 < 1 + e * Real.cos 0 := by rw [Real.cos_zero]; linarith

theorem peri_norm : V3.norm (coe2rv p e i Ω ω 0 mu).1 = p / (1 + e) := by
  rw [(C32_magnitudes hp hmu (peri_pos he) i Ω ω he).1]; simp [equ_of_orbit]

theorem peri_h : angular_momentum (coe2rv p e i Ω ω 0 mu).1 (coe2rv p e i Ω ω 0 mu).2 ≠ ⟨0, 0, 0⟩ := by
  rw [(C32_geometry hp hmu (peri_pos he) i Ω ω).2.1]
  intro h
  have h1 := congrArg V3.norm h
  rw [V3.norm_smul, norm_pole, abs_of_nonneg (Real.sqrt_nonneg _), mul_one] at h1
  have : 0 < Real.sqrt (mu * p) := Real.sqrt_pos.2 (by positivity)
  simp [V3.norm, dot] at h1
  linarith

theorem peri_sigma : sigma_fn (coe2rv p e i Ω ω 0 mu).1 (coe2rv p e i Ω ω 0 mu).2 mu = 0 := by
  rw [sigma_fn, (C32_geometry hp hmu (peri_pos he) i Ω ω).2.2.2]; simp

theorem peri_alpha : alphaOf (coe2rv p e i Ω ω 0 mu).1 (coe2rv p e i Ω ω 0 mu).2 mu = (1 - e ^ 2) / p := by
  have h := pOf_alpha hmu (peri_h hp he hmu i Ω ω)
  obtain ⟨-, h2, h3⟩ := C32_magnitudes hp hmu (peri_pos he) i Ω ω he
  rw [pOf, eOf, h2, h3] at h
  rw [eq_div_iff hp.ne', mul_comm]; exact h

/-- The state reached from periapsis with universal anomaly `χ` is the one `coe2rv` makes from the true anomaly there. -/
theorem from_periapsis {χ f : ℝ} (hR : 0 < p / (1 + e) + e * U 2 χ ((1 - e ^ 2) / p))
    (hc : Real.cos f * (p / (1 + e) + e * U 2 χ ((1 - e ^ 2) / p)) = p / (1 + e) - U 2 χ ((1 - e ^ 2) / p))
    (hs : Real.sin f * (p / (1 + e) + e * U 2 χ ((1 - e ^ 2) / p)) = Real.sqrt p * U 1 χ ((1 - e ^ 2) / p)) :
    stepOf (coe2rv p e i Ω ω 0 mu).1 (coe2rv p e i Ω ω 0 mu).2 mu χ = coe2rv p e i Ω ω f mu := by
  have hsp : Real.sqrt p ≠ 0 := (Real.sqrt_pos.2 hp).ne'
  have hsm : Real.sqrt mu ≠ 0 := (Real.sqrt_pos.2 hmu).ne'
  have hpp : Real.sqrt p ^ 2 = p := Real.sq_sqrt hp.le
  have hdiv : Real.sqrt (mu / p) = Real.sqrt mu / Real.sqrt p := Real.sqrt_div hmu.le p
  have h1e : 1 + e ≠ 0 := by linarith
  rw [stepOf, peri_norm hp he hmu, peri_sigma hp he hmu, peri_alpha hp he hmu, keplerStep_eq]
  set α := (1 - e ^ 2) / p with hα
  have hrad : radU α (p / (1 + e)) 0 χ = p / (1 + e) + e * U 2 χ α := by
    rw [radU, U0_eq, hα]; field_simp; ring
  set R := p / (1 + e) + e * U 2 χ α with hRd
  have hU2 : U 2 χ α = p / (1 + e) - Real.cos f * R := by linarith
  have hU1 : U 1 χ α = Real.sin f * R / Real.sqrt p := by rw [hs]; field_simp
  have hRf : R * (1 + e * Real.cos f) = p := by
    have : R = p / (1 + e) + e * (p / (1 + e) - Real.cos f * R) := by rw [← hU2]
    have h2 : R * (1 + e * Real.cos f) = p / (1 + e) * (1 + e) := by linear_combination this
    rw [h2, div_mul_cancel₀ _ h1e]
  clear_value R
  have hcf : 1 + e * Real.cos f ≠ 0 := by rintro h; rw [h, mul_zero] at hRf; linarith
  have hRp : p / (1 + e * Real.cos f) = R := by rw [div_eq_iff hcf]; exact hRf.symm
  have lin : ∀ (M : M3 ℝ) (a b : ℝ) (x y : V3 ℝ), a • M3.mulVec M x + b • M3.mulVec M y = M3.mulVec M (a • x + b • y) := by
    intro M a b x y; ext <;> simp [M3.mulVec, V3.dot] <;> ring
  simp only [coe2rv, lin]
  have key1 : cF (p / (1 + e)) χ α • perifocalPos p e 0 + cG α (p / (1 + e)) 0 mu χ • perifocalVel p e 0 mu = perifocalPos p e f := by
    simp only [perifocalPos_eq, perifocalVel_eq, cF, cG, hU1, hU2, hRp, hdiv, Real.cos_zero, Real.sin_zero, mul_one]
    ext
    · simp; field_simp; ring
    · simp
      field_simp
      rw [hpp]
      ring
    · simp
  have key2 : cFt α (p / (1 + e)) 0 mu χ • perifocalPos p e 0 + cGt α (p / (1 + e)) 0 χ • perifocalVel p e 0 mu
      = perifocalVel p e f mu := by
    simp only [perifocalPos_eq, perifocalVel_eq, cFt, cGt, hrad, hU1, hU2, hdiv, Real.cos_zero, Real.sin_zero, mul_one]
    ext
    · simp; field_simp
    · simp
      field_simp
      linear_combination (1 + e) * hRf
    · simp
  rw [key1, key2]

/-- From any point of the orbit to any other: the time between them is the difference of the times since periapsis. -/
theorem along_orbit {χ0 f0 χ f t : ℝ}
    (h0 : 0 < p / (1 + e) + e * U 2 χ0 ((1 - e ^ 2) / p) ∧
      Real.cos f0 * (p / (1 + e) + e * U 2 χ0 ((1 - e ^ 2) / p)) = p / (1 + e) - U 2 χ0 ((1 - e ^ 2) / p) ∧
      Real.sin f0 * (p / (1 + e) + e * U 2 χ0 ((1 - e ^ 2) / p)) = Real.sqrt p * U 1 χ0 ((1 - e ^ 2) / p))
    (h1 : 0 < p / (1 + e) + e * U 2 χ ((1 - e ^ 2) / p) ∧
      Real.cos f * (p / (1 + e) + e * U 2 χ ((1 - e ^ 2) / p)) = p / (1 + e) - U 2 χ ((1 - e ^ 2) / p) ∧
      Real.sin f * (p / (1 + e) + e * U 2 χ ((1 - e ^ 2) / p)) = Real.sqrt p * U 1 χ ((1 - e ^ 2) / p))
    (ht : kepU ((1 - e ^ 2) / p) (p / (1 + e)) 0 χ = kepU ((1 - e ^ 2) / p) (p / (1 + e)) 0 χ0 + Real.sqrt mu * t) :
    exactProp (coe2rv p e i Ω ω f0 mu).1 (coe2rv p e i Ω ω f0 mu).2 mu t = coe2rv p e i Ω ω f mu := by
  have hsm : Real.sqrt mu ≠ 0 := (Real.sqrt_pos.2 hmu).ne'
  have hh := peri_h hp he hmu i Ω ω
  have reach : ∀ s χ f, 0 < p / (1 + e) + e * U 2 χ ((1 - e ^ 2) / p) →
      Real.cos f * (p / (1 + e) + e * U 2 χ ((1 - e ^ 2) / p)) = p / (1 + e) - U 2 χ ((1 - e ^ 2) / p) →
      Real.sin f * (p / (1 + e) + e * U 2 χ ((1 - e ^ 2) / p)) = Real.sqrt p * U 1 χ ((1 - e ^ 2) / p) →
      kepU ((1 - e ^ 2) / p) (p / (1 + e)) 0 χ = Real.sqrt mu * s →
      exactProp (coe2rv p e i Ω ω 0 mu).1 (coe2rv p e i Ω ω 0 mu).2 mu s = coe2rv p e i Ω ω f mu := by
    intro s χ f g1 g2 g3 g4
    rw [exactProp, ← exactChi_unique hmu hh (χ := χ) (isRoot_iff.2 (by
      rw [peri_norm hp he hmu, peri_sigma hp he hmu, peri_alpha hp he hmu]; exact g4))]
    exact from_periapsis hp he hmu i Ω ω g1 g2 g3
  set s := kepU ((1 - e ^ 2) / p) (p / (1 + e)) 0 χ0 / Real.sqrt mu with hs
  have hs' : kepU ((1 - e ^ 2) / p) (p / (1 + e)) 0 χ0 = Real.sqrt mu * s := by rw [hs]; field_simp
  have e0 := reach s χ0 f0 h0.1 h0.2.1 h0.2.2 hs'
  have e1 := reach (s + t) χ f h1.1 h1.2.1 h1.2.2 (by rw [ht, hs']; ring)
  rw [← C24_composition hmu hh, e0] at e1
  exact e1

omit hmu in
/-- The universal quantities on an ellipse in the eccentric anomaly since periapsis. -/
theorem elps_point (h1 : e < 1) {E f : ℝ} (hf : TrueOfEccentric e E f) :
    let χ := Real.sqrt (p / (1 - e ^ 2)) * E
    (0 < p / (1 + e) + e * U 2 χ ((1 - e ^ 2) / p) ∧
      Real.cos f * (p / (1 + e) + e * U 2 χ ((1 - e ^ 2) / p)) = p / (1 + e) - U 2 χ ((1 - e ^ 2) / p) ∧
      Real.sin f * (p / (1 + e) + e * U 2 χ ((1 - e ^ 2) / p)) = Real.sqrt p * U 1 χ ((1 - e ^ 2) / p)) ∧
    kepU ((1 - e ^ 2) / p) (p / (1 + e)) 0 χ = Real.sqrt (p / (1 - e ^ 2)) ^ 3 * (E - e * Real.sin E) := by
  intro χ
  have hq : 0 < 1 - e ^ 2 := by nlinarith
  have ha : 0 < p / (1 - e ^ 2) := by positivity
  set b := Real.sqrt (p / (1 - e ^ 2)) with hb
  have hb0 : 0 < b := Real.sqrt_pos.2 ha
  have hb2 : b ^ 2 = p / (1 - e ^ 2) := Real.sq_sqrt ha.le
  have hα : (1 - e ^ 2) / p = 1 / b ^ 2 := by rw [hb2, one_div_div]
  have hpb : p = b ^ 2 * (1 - e ^ 2) := by rw [hb2]; field_simp
  have hper : p / (1 + e) = b ^ 2 * (1 - e) := by rw [div_eq_iff (by linarith), hpb]; ring
  have hsp : Real.sqrt p = b * Real.sqrt (1 - e ^ 2) := by
    rw [hpb, Real.sqrt_mul (by positivity), Real.sqrt_sq hb0.le]
  have hχ : χ / b = E := mul_div_cancel_left₀ E hb0.ne'
  obtain ⟨u0, u1, u2, u3⟩ := U_elps hb0 χ
  rw [hχ] at u0 u1 u2 u3
  rw [kepU, hα, hper, hsp, u1, u2, u3]
  have hc : e * Real.cos E < 1 := by
    have := Real.cos_le_one E
    nlinarith
  have hR : b ^ 2 * (1 - e) + e * (b ^ 2 * (1 - Real.cos E)) = b ^ 2 * (1 - e * Real.cos E) := by ring
  refine ⟨⟨?_, ?_, ?_⟩, ?_⟩
  · rw [hR]; exact mul_pos (by positivity) (by linarith)
  · rw [hR]; linear_combination b ^ 2 * hf.1
  · rw [hR]; linear_combination b ^ 2 * hf.2
  · ring

omit hmu in
/-- The same on a hyperbola. -/
theorem hypb_point (h1 : 1 < e) {H f : ℝ} (hf : TrueOfHyperbolic e H f) :
    let χ := Real.sqrt (p / (e ^ 2 - 1)) * H
    (0 < p / (1 + e) + e * U 2 χ ((1 - e ^ 2) / p) ∧
      Real.cos f * (p / (1 + e) + e * U 2 χ ((1 - e ^ 2) / p)) = p / (1 + e) - U 2 χ ((1 - e ^ 2) / p) ∧
      Real.sin f * (p / (1 + e) + e * U 2 χ ((1 - e ^ 2) / p)) = Real.sqrt p * U 1 χ ((1 - e ^ 2) / p)) ∧
    kepU ((1 - e ^ 2) / p) (p / (1 + e)) 0 χ = Real.sqrt (p / (e ^ 2 - 1)) ^ 3 * (e * Real.sinh H - H) := by
  intro χ
  have hq : 0 < e ^ 2 - 1 := by nlinarith
  have ha : 0 < p / (e ^ 2 - 1) := by positivity
  set b := Real.sqrt (p / (e ^ 2 - 1)) with hb
  have hb0 : 0 < b := Real.sqrt_pos.2 ha
  have hb2 : b ^ 2 = p / (e ^ 2 - 1) := Real.sq_sqrt ha.le
  have hα : (1 - e ^ 2) / p = -(1 / b ^ 2) := by rw [hb2, one_div_div]; ring
  have hpb : p = b ^ 2 * (e ^ 2 - 1) := by rw [hb2]; field_simp
  have hper : p / (1 + e) = b ^ 2 * (e - 1) := by rw [div_eq_iff (by linarith), hpb]; ring
  have hsp : Real.sqrt p = b * Real.sqrt (e ^ 2 - 1) := by
    rw [hpb, Real.sqrt_mul (by positivity), Real.sqrt_sq hb0.le]
  have hχ : χ / b = H := mul_div_cancel_left₀ H hb0.ne'
  obtain ⟨u0, u1, u2, u3⟩ := U_hypb hb0 χ
  rw [hχ] at u0 u1 u2 u3
  rw [kepU, hα, hper, hsp, u1, u2, u3]
  have hc : 1 < e * Real.cosh H := by
    have := Real.one_le_cosh H
    nlinarith
  have hR : b ^ 2 * (e - 1) + e * (b ^ 2 * (Real.cosh H - 1)) = b ^ 2 * (e * Real.cosh H - 1) := by ring
  refine ⟨⟨?_, ?_, ?_⟩, ?_⟩
  · rw [hR]; exact mul_pos (by positivity) (by linarith)
  · rw [hR]; linear_combination b ^ 2 * hf.1
  · rw [hR]; linear_combination b ^ 2 * hf.2
  · ring

/-- C87, ellipses: `kepler` with its equation solved exactly carries the state of anomaly `f0` to the state of anomaly `f`, where the
eccentric anomalies satisfy `kepler_equ_elps`; circles included. For any `E` at all, the state `coe2rv` makes from it is the exact state at
a time off by the residual divided by the mean motion. -/
theorem C87_elliptic (h1 : e < 1) {E0 f0 E f : ℝ} (hf0 : TrueOfEccentric e E0 f0) (hf : TrueOfEccentric e E f) (t : ℝ) :
    exactProp (coe2rv p e i Ω ω f0 mu).1 (coe2rv p e i Ω ω f0 mu).2 mu
        (t + kepler_equ_elps E e (E0 - e * Real.sin E0 + mean_anomaly_elps (p / (1 - e ^ 2)) t mu) /
          mean_motion (orb_period (p / (1 - e ^ 2)) mu))
      = coe2rv p e i Ω ω f mu := by
  obtain ⟨a0, b0⟩ := elps_point hp he h1 hf0
  obtain ⟨a1, b1⟩ := elps_point hp he h1 hf
  have hq : 0 < 1 - e ^ 2 := by nlinarith
  have ha : 0 < p / (1 - e ^ 2) := by positivity
  refine along_orbit hp he hmu i Ω ω a0 a1 ?_
  rw [b0, b1, kep_elps_eq, mean_anomaly_elps, mean_motion, orb_period]
  set a := p / (1 - e ^ 2) with had
  have hsm : 0 < Real.sqrt mu := Real.sqrt_pos.2 hmu
  have hsa : 0 < Real.sqrt a := Real.sqrt_pos.2 ha
  have h3 : Real.sqrt (a ^ 3) = Real.sqrt a ^ 3 := by
    rw [show a ^ 3 = (Real.sqrt a ^ 3) ^ 2 by rw [← pow_mul, show 3 * 2 = 2 * 3 by norm_num, pow_mul, Real.sq_sqrt ha.le],
      Real.sqrt_sq (by positivity)]
  have hpi := Real.pi_pos
  simp only [sqrt_real, pi_real, Nat.cast_ofNat]
  have hn : Real.sqrt (mu / a ^ 3) = Real.sqrt mu / Real.sqrt a ^ 3 := by rw [Real.sqrt_div hmu.le, h3]
  have hT : Real.sqrt (a ^ 3 / mu) = Real.sqrt a ^ 3 / Real.sqrt mu := by
    rw [Real.sqrt_div (by positivity), h3]
  rw [hn, hT]
  clear_value a
  field_simp
  ring

/-- C87, hyperbolas. -/
theorem C87_hyperbolic (h1 : 1 < e) {H0 f0 H f : ℝ} (hf0 : TrueOfHyperbolic e H0 f0) (hf : TrueOfHyperbolic e H f) (t : ℝ) :
    exactProp (coe2rv p e i Ω ω f0 mu).1 (coe2rv p e i Ω ω f0 mu).2 mu
        (t + kepler_equ_hypb H e (e * Real.sinh H0 - H0 + mean_anomaly_hypb (p / (1 - e ^ 2)) t mu) /
          mean_anomaly_hypb (p / (1 - e ^ 2)) 1 mu)
      = coe2rv p e i Ω ω f mu := by
  obtain ⟨a0, b0⟩ := hypb_point hp he h1 hf0
  obtain ⟨a1, b1⟩ := hypb_point hp he h1 hf
  have hq : 0 < e ^ 2 - 1 := by nlinarith
  have ha : 0 < p / (e ^ 2 - 1) := by positivity
  refine along_orbit hp he hmu i Ω ω a0 a1 ?_
  rw [b0, b1, kep_hypb_eq, mean_anomaly_hypb, mean_anomaly_hypb]
  have hneg : -(p / (1 - e ^ 2)) ^ 3 = (p / (e ^ 2 - 1)) ^ 3 := by
    rw [show (1 - e ^ 2) = -(e ^ 2 - 1) by ring, div_neg]; ring
  rw [hneg]
  set a := p / (e ^ 2 - 1) with had
  have hsm : 0 < Real.sqrt mu := Real.sqrt_pos.2 hmu
  have hsa : 0 < Real.sqrt a := Real.sqrt_pos.2 ha
  have h3 : Real.sqrt (a ^ 3) = Real.sqrt a ^ 3 := by
    rw [show a ^ 3 = (Real.sqrt a ^ 3) ^ 2 by rw [← pow_mul, show 3 * 2 = 2 * 3 by norm_num, pow_mul, Real.sq_sqrt ha.le],
      Real.sqrt_sq (by positivity)]
  simp only [sqrt_real]
  rw [Real.sqrt_div hmu.le, h3]
  clear_value a
  field_simp
  ring

end

/-- C87, parabolas, with Barker's equation. -/
theorem C87_parabolic {p mu : ℝ} (hp : 0 < p) (hmu : 0 < mu) (i Ω ω : ℝ) {D0 f0 D f t : ℝ} (hf0 : TrueOfParabolic p D0 f0)
    (hf : TrueOfParabolic p D f)
    (ht : (D ^ 3 + 3 * p * D) / 6 = (D0 ^ 3 + 3 * p * D0) / 6 + Real.sqrt mu * t) :
    exactProp (coe2rv p 1 i Ω ω f0 mu).1 (coe2rv p 1 i Ω ω f0 mu).2 mu t = coe2rv p 1 i Ω ω f mu := by
  have key : ∀ D f, TrueOfParabolic p D f → (0 < p / (1 + 1) + 1 * U 2 D ((1 - 1 ^ 2) / p) ∧
      Real.cos f * (p / (1 + 1) + 1 * U 2 D ((1 - 1 ^ 2) / p)) = p / (1 + 1) - U 2 D ((1 - 1 ^ 2) / p) ∧
      Real.sin f * (p / (1 + 1) + 1 * U 2 D ((1 - 1 ^ 2) / p)) = Real.sqrt p * U 1 D ((1 - 1 ^ 2) / p)) ∧
      kepU ((1 - 1 ^ 2) / p) (p / (1 + 1)) 0 D = (D ^ 3 + 3 * p * D) / 6 := by
    intro D f hf
    have u1 : U 1 D 0 = D := by rw [← C07_ufunc1]; simp [ufunc1]
    have u2 : U 2 D 0 = D ^ 2 / 2 := by rw [← C07_ufunc2]; simp [ufunc2]
    have u3 : U 3 D 0 = D ^ 3 / 6 := by rw [← C07_ufunc3]; simp [ufunc3]
    rw [show (1 - 1 ^ 2) / p = (0 : ℝ) by norm_num, kepU, u1, u2, u3]
    refine ⟨⟨by positivity, by linear_combination hf.1 / 2, by linear_combination hf.2 / 2⟩, by ring⟩
  obtain ⟨a0, b0⟩ := key D0 f0 hf0
  obtain ⟨a1, b1⟩ := key D f hf
  exact along_orbit hp zero_le_one hmu i Ω ω a0 a1 (by rw [b0, b1]; exact ht)

theorem circle_angle {x y d : ℝ} (hd : 0 < d) (h : x ^ 2 + y ^ 2 = d ^ 2) :
    ∃ θ, 0 ≤ θ ∧ θ < 2 * Real.pi ∧ Real.cos θ * d = x ∧ Real.sin θ * d = y := by
  obtain ⟨θ, h0, h1, hx, hy⟩ := exists_angle x y
  rw [h, Real.sqrt_sq hd.le] at hx hy
  exact ⟨θ, h0, h1, by linarith, by linarith⟩

/-- Every true anomaly of an ellipse has an eccentric anomaly and conversely. -/
theorem C87_total_elps {e : ℝ} (h0 : 0 ≤ e) (h1 : e < 1) :
    (∀ f, ∃ E, TrueOfEccentric e E f) ∧ ∀ E, ∃ f, 0 ≤ f ∧ f < 2 * Real.pi ∧ TrueOfEccentric e E f := by
  have hq : 0 < 1 - e ^ 2 := by nlinarith
  have hs := Real.sq_sqrt hq.le
  constructor
  · intro f
    have hd : 0 < 1 + e * Real.cos f := by nlinarith [Real.neg_one_le_cos f]
    obtain ⟨E, -, -, hx, hy⟩ := circle_angle (x := e + Real.cos f) (y := Real.sqrt (1 - e ^ 2) * Real.sin f) hd (by
      rw [mul_pow, hs]; linear_combination (1 - e ^ 2) * Real.sin_sq_add_cos_sq f)
    refine ⟨E, mul_right_cancel₀ hd.ne' ?_, mul_right_cancel₀ hd.ne' ?_⟩
    · linear_combination -(1 + e * Real.cos f) * hx
    · linear_combination -(e * Real.sin f) * hx - Real.sqrt (1 - e ^ 2) * hy - Real.sin f * hs
  · intro E
    have hd : 0 < 1 - e * Real.cos E := by nlinarith [Real.cos_le_one E]
    obtain ⟨f, hf0, hf1, hx, hy⟩ := circle_angle (x := Real.cos E - e) (y := Real.sqrt (1 - e ^ 2) * Real.sin E) hd (by
      rw [mul_pow, hs]; linear_combination (1 - e ^ 2) * Real.sin_sq_add_cos_sq E)
    exact ⟨f, hf0, hf1, hx, hy⟩

/-- The same on a hyperbola, for the true anomalies short of the asymptotes. -/
theorem C87_total_hypb {e : ℝ} (h1 : 1 < e) :
    (∀ f, 0 < 1 + e * Real.cos f → ∃ H, TrueOfHyperbolic e H f) ∧
    ∀ H, ∃ f, 0 ≤ f ∧ f < 2 * Real.pi ∧ 0 < 1 + e * Real.cos f ∧ TrueOfHyperbolic e H f := by
  have hq : 0 < e ^ 2 - 1 := by nlinarith
  have hs := Real.sq_sqrt hq.le
  constructor
  · intro f hd
    set H := Real.arsinh (Real.sqrt (e ^ 2 - 1) * Real.sin f / (1 + e * Real.cos f)) with hH
    have hy : Real.sinh H * (1 + e * Real.cos f) = Real.sqrt (e ^ 2 - 1) * Real.sin f := by
      rw [hH, Real.sinh_arsinh, div_mul_cancel₀ _ hd.ne']
    have hx : Real.cosh H * (1 + e * Real.cos f) = e + Real.cos f := by
      have hc : 0 < e + Real.cos f := by linarith [Real.neg_one_le_cos f]
      refine (pow_left_inj₀ (mul_nonneg (Real.cosh_pos H).le hd.le) hc.le two_ne_zero).1 ?_
      have h2 := Real.cosh_sq H
      linear_combination (1 + e * Real.cos f) ^ 2 * h2
        + (Real.sinh H * (1 + e * Real.cos f) + Real.sqrt (e ^ 2 - 1) * Real.sin f) * hy
        + Real.sin f ^ 2 * hs + (e ^ 2 - 1) * Real.sin_sq_add_cos_sq f
    refine ⟨H, mul_right_cancel₀ hd.ne' ?_, mul_right_cancel₀ hd.ne' ?_⟩
    · linear_combination (1 + e * Real.cos f) * hx
    · linear_combination (e * Real.sin f) * hx - Real.sqrt (e ^ 2 - 1) * hy - Real.sin f * hs
  · intro H
    have hd : 0 < e * Real.cosh H - 1 := by nlinarith [Real.one_le_cosh H]
    obtain ⟨f, hf0, hf1, hx, hy⟩ := circle_angle (x := e - Real.cosh H) (y := Real.sqrt (e ^ 2 - 1) * Real.sinh H) hd (by
      rw [mul_pow, hs]; linear_combination (1 - e ^ 2) * Real.cosh_sq H)
    refine ⟨f, hf0, hf1, ?_, hx, hy⟩
    refine pos_of_mul_pos_left (b := e * Real.cosh H - 1) ?_ hd.le
    rw [show (1 + e * Real.cos f) * (e * Real.cosh H - 1) = e ^ 2 - 1 by linear_combination e * hx]
    exact hq

/-- The same on a parabola. -/
theorem C87_total_parb {p : ℝ} (hp : 0 < p) :
    (∀ f, 0 < 1 + Real.cos f → ∃ D, TrueOfParabolic p D f) ∧
    ∀ D, ∃ f, 0 ≤ f ∧ f < 2 * Real.pi ∧ 0 < 1 + Real.cos f ∧ TrueOfParabolic p D f := by
  have hs := Real.sq_sqrt hp.le
  constructor
  · intro f hd
    have hc := Real.sin_sq_add_cos_sq f
    set D := Real.sqrt p * Real.sin f / (1 + Real.cos f) with hD
    have hy : D * (1 + Real.cos f) = Real.sqrt p * Real.sin f := by rw [hD, div_mul_cancel₀ _ hd.ne']
    have h2 : D ^ 2 * (1 + Real.cos f) = p * (1 - Real.cos f) := by
      refine mul_right_cancel₀ hd.ne' ?_
      linear_combination (D * (1 + Real.cos f) + Real.sqrt p * Real.sin f) * hy + Real.sin f ^ 2 * hs + p * hc
    refine ⟨D, ?_, mul_right_cancel₀ hd.ne' ?_⟩
    · linear_combination h2
    · linear_combination Real.sin f * h2 - 2 * Real.sqrt p * hy - 2 * Real.sin f * hs
  · intro D
    have hd : 0 < p + D ^ 2 := by positivity
    obtain ⟨f, hf0, hf1, hx, hy⟩ := circle_angle (x := p - D ^ 2) (y := 2 * Real.sqrt p * D) hd (by
      linear_combination 4 * D ^ 2 * hs)
    refine ⟨f, hf0, hf1, ?_, hx, hy⟩
    refine pos_of_mul_pos_left (b := p + D ^ 2) ?_ hd.le
    rw [show (1 + Real.cos f) * (p + D ^ 2) = 2 * p by linear_combination hx]
    positivity

/-- C87: every state `kepler` returns has the elements of the initial state in `rv2coe`, the true anomaly excepted; at any tolerance, and
whatever the root finder returned. -/
theorem C87_elements {ts : List ℝ} {r v : V3 ℝ} {mu : ℝ} (hmu : 0 < mu) (hh : angular_momentum r v ≠ ⟨0, 0, 0⟩)
    {rs vs : List (V3 ℝ)} (h : kepler ts r v mu = some (rs, vs)) {i : ℕ} {r' v' : V3 ℝ}
    (hr : rs[i]? = some r') (hv : vs[i]? = some v') :
    rv2coe r' v' mu = { rv2coe r v mu with true_anom := (rv2coe r' v' mu).true_anom } ∧
    true_anomaly r' (eccentricity_vector r v mu) = (rv2coe r' v' mu).true_anom := by
  have hne : r' ≠ ⟨0, 0, 0⟩ := C19_never_collides hmu hh h (List.mem_of_getElem? hr)
  obtain ⟨h1, -, h3⟩ := C19_stays_on_orbit (pos_ne hmu hh) hmu h hr hv hne
  simp only [rv2coe, h1, h3, and_self]

theorem hasDerivAt_norm {q : ℝ → V3 ℝ} {w : V3 ℝ} {t : ℝ} (h : HasDerivV q w t) (hne : q t ≠ ⟨0, 0, 0⟩) :
    HasDerivAt (fun t => V3.norm (q t)) (V3.dot (q t) w / V3.norm (q t)) t := by
  have hn := (norm_pos _).2 hne
  have hs : (q t).x * (q t).x + (q t).y * (q t).y + (q t).z * (q t).z ≠ 0 := by
    intro h0
    have : V3.norm (q t) = Real.sqrt ((q t).x * (q t).x + (q t).y * (q t).y + (q t).z * (q t).z) := rfl
    rw [this, h0, Real.sqrt_zero] at hn
    exact lt_irrefl _ hn
  have := (((h.x.mul h.x).add (h.y.mul h.y)).add (h.z.mul h.z)).sqrt hs
  refine this.congr_deriv (Eq.symm ?_)
  change ((q t).x * w.x + (q t).y * w.y + (q t).z * w.z) / V3.norm (q t) = (w.x * (q t).x + (q t).x * w.x
    + (w.y * (q t).y + (q t).y * w.y) + (w.z * (q t).z + (q t).z * w.z)) / (2 * V3.norm (q t))
  field_simp
  ring

section
variable {r v : V3 ℝ} {mu : ℝ} (hmu : 0 < mu) (hh : angular_momentum r v ≠ ⟨0, 0, 0⟩)
include hmu hh

/-- The true anomaly `rv2coe` returns, from the distance alone. -/
theorem true_anom_arccos (he : eOf r v mu ≠ 0) :
    (rv2coe r v mu).true_anom = Real.arccos ((pOf r v mu / V3.norm r - 1) / eOf r v mu) := by
  have h := C05_orbit_equation hh hmu
  obtain ⟨g0, g1⟩ := (C35_ranges r v hmu.le).2.2.2.2.2
  have hp := pOf_pos hh hmu
  have hn := (norm_pos r).2 (pos_ne hmu hh)
  change 0 ≤ true_anomaly r (eccentricity_vector r v mu) at g0
  change true_anomaly r (eccentricity_vector r v mu) ≤ _ at g1
  change true_anomaly r (eccentricity_vector r v mu) = _
  set ν := true_anomaly r (eccentricity_vector r v mu)
  simp only [equ_of_orbit, cos_real, Nat.cast_one] at h
  have hd : 1 + eOf r v mu * Real.cos ν ≠ 0 := by
    intro hd; rw [hd, div_zero] at h; exact hn.ne h
  rw [div_eq_iff hd] at h
  rw [show (pOf r v mu / V3.norm r - 1) / eOf r v mu = Real.cos ν by rw [h]; field_simp; ring, Real.arccos_cos g0 g1]

/-- C87: away from the apses of a noncircular orbit, the true anomaly `rv2coe` returns along the motion changes at the rate `|h|/|r|²` of
the angle swept out on the way out, and at the opposite rate on the way in. -/
theorem C87_rate (he : eOf r v mu ≠ 0) {t : ℝ} (hd : V3.dot (exactProp r v mu t).1 (exactProp r v mu t).2 ≠ 0) :
    HasDerivAt (fun t => (rv2coe (exactProp r v mu t).1 (exactProp r v mu t).2 mu).true_anom)
      (SignType.sign (V3.dot (exactProp r v mu t).1 (exactProp r v mu t).2) *
        (V3.norm (angular_momentum r v) / V3.norm (exactProp r v mu t).1 ^ 2)) t := by
  have hfun : (fun t => (rv2coe (exactProp r v mu t).1 (exactProp r v mu t).2 mu).true_anom)
      = fun t => Real.arccos ((pOf r v mu / V3.norm (exactProp r v mu t).1 - 1) / eOf r v mu) := by
    funext s
    have hs : angular_momentum (exactProp r v mu s).1 (exactProp r v mu s).2 ≠ ⟨0, 0, 0⟩ := by
      rw [exactProp_h hmu hh]; exact hh
    obtain ⟨e1, e2⟩ := exactProp_pe hmu hh s
    rw [true_anom_arccos hmu hs (by rw [e2]; exact he), e1, e2]
  rw [hfun]
  obtain ⟨hne, hv, -⟩ := (C21_solves_two_body hmu hh).2 t trivial
  have hst : angular_momentum (exactProp r v mu t).1 (exactProp r v mu t).2 ≠ ⟨0, 0, 0⟩ := by
    rw [exactProp_h hmu hh]; exact hh
  have hinv := pOf_inv hmu hst
  have hal := pOf_alpha hmu hst
  have hdot : V3.dot (exactProp r v mu t).1 (exactProp r v mu t).2
      = Real.sqrt mu * sigma_fn (exactProp r v mu t).1 (exactProp r v mu t).2 mu := sigma_rv hmu
  obtain ⟨e1, e2⟩ := exactProp_pe hmu hh t
  have hn := (norm_pos _).2 hne
  have hρ := hasDerivAt_norm hv hne
  rw [e1] at hinv hal
  rw [e2] at hal
  have hp := pOf_pos hh hmu
  have hH : V3.norm (angular_momentum r v) = Real.sqrt mu * Real.sqrt (pOf r v mu) := by
    rw [← Real.sqrt_mul hmu.le, pOf, semiparameter_eq, mul_div_cancel₀ _ hmu.ne']
    rfl
  have hE : 0 < eOf r v mu := lt_of_le_of_ne (norm_nonneg _) (Ne.symm he)
  have hsm := Real.sqrt_pos.2 hmu
  have hsp := Real.sqrt_pos.2 hp
  have hsp2 := Real.sq_sqrt hp.le
  rw [hH]
  generalize pOf r v mu = p at *
  generalize eOf r v mu = e at *
  generalize alphaOf (exactProp r v mu t).1 (exactProp r v mu t).2 mu = α at *
  generalize hσ : sigma_fn (exactProp r v mu t).1 (exactProp r v mu t).2 mu = σ at *
  rw [hdot] at hρ hd ⊢
  have hσ0 : σ ≠ 0 := by rintro rfl; simp at hd
  generalize hr : V3.norm (exactProp r v mu t).1 = ρ at *
  have hkey : 1 - ((p / ρ - 1) / e) ^ 2 = (Real.sqrt p * |σ| / (e * ρ)) ^ 2 := by
    rw [div_pow, div_pow, mul_pow, sq_abs, hsp2]
    field_simp
    linear_combination p * hinv + ρ ^ 2 * hal
  have hpos : 0 < Real.sqrt p * |σ| / (e * ρ) := by have := abs_pos.2 hσ0; positivity
  have hc1 : (p / ρ - 1) / e ≠ -1 := by intro h; rw [h] at hkey; norm_num at hkey; exact (pow_pos hpos 2).ne' hkey.symm
  have hc2 : (p / ρ - 1) / e ≠ 1 := by intro h; rw [h] at hkey; norm_num at hkey; exact (pow_pos hpos 2).ne' hkey.symm
  have hin : HasDerivAt (fun t => (p / V3.norm (exactProp r v mu t).1 - 1) / e)
      (-(p * (Real.sqrt mu * σ / ρ)) / ρ ^ 2 / e) t := by
    have := (((hasDerivAt_const t p).div hρ (by rw [hr]; exact hn.ne')).sub_const 1).div_const e
    rw [hr] at this
    refine this.congr_deriv ?_
    ring
  have hA := Real.hasDerivAt_arccos hc1 hc2
  rw [← hr] at hA
  have hfin := hA.comp t hin
  rw [hr, hkey, Real.sqrt_sq hpos.le] at hfin
  refine hfin.congr_deriv (Eq.symm ?_)
  rcases lt_or_gt_of_ne hσ0 with hs | hs
  · rw [sign_neg (mul_neg_of_pos_of_neg hsm hs), abs_of_neg hs]
    simp only [SignType.coe_neg, SignType.coe_one]
    field_simp
    linear_combination -hsp2
  · rw [sign_pos (mul_pos hsm hs), abs_of_pos hs]
    simp only [SignType.coe_one]
    field_simp
    linear_combination hsp2

end

/-- C87: for every initial anomaly of an ellipse and every flight time the anomaly route has exactly one answer up to whole turns of the
eccentric anomaly, and it is the state `kepler` would return with its equation solved. -/
theorem C87_route {p e mu : ℝ} (hp : 0 < p) (h0 : 0 ≤ e) (h1 : e < 1) (hmu : 0 < mu) (i Ω ω f0 t : ℝ) {E0 : ℝ}
    (hE0 : TrueOfEccentric e E0 f0) :
    ∃! E, kepler_equ_elps E e (E0 - e * Real.sin E0 + mean_anomaly_elps (p / (1 - e ^ 2)) t mu) = 0 ∧
      ∀ f, TrueOfEccentric e E f →
        exactProp (coe2rv p e i Ω ω f0 mu).1 (coe2rv p e i Ω ω f0 mu).2 mu t = coe2rv p e i Ω ω f mu := by
  obtain ⟨E, hE, hu⟩ := C10_existsUnique h0 h1 (E0 - e * Real.sin E0 + mean_anomaly_elps (p / (1 - e ^ 2)) t mu)
  refine ⟨E, ⟨hE, fun f hf => ?_⟩, fun E' h' => hu E' h'.1⟩
  have := C87_elliptic hp h0 hmu i Ω ω h1 hE0 hf t
  rwa [hE, zero_div, add_zero] at this

/-- Non-vacuity: from periapsis to apoapsis of an ellipse of eccentricity 1/2 in half a period, `mu = 1`, `a = 1`. -/
example (i Ω ω : ℝ) :
    exactProp (coe2rv (3 / 4) (1 / 2) i Ω ω 0 1).1 (coe2rv (3 / 4) (1 / 2) i Ω ω 0 1).2 1 Real.pi
      = coe2rv (3 / 4) (1 / 2) i Ω ω Real.pi 1 := by
  have h := C87_elliptic (p := 3 / 4) (e := 1 / 2) (by norm_num) (by norm_num) one_pos i Ω ω (by norm_num) (E0 := 0) (f0 := 0)
    (E := Real.pi) (f := Real.pi) (by constructor <;> norm_num) (by constructor <;> norm_num) Real.pi
  rw [kep_elps_eq, mean_anomaly_elps, show (3 / 4 : ℝ) / (1 - (1 / 2) ^ 2) = 1 by norm_num] at h
  simpa using h

/-- Non-vacuity: on the parabola with `p = 4`, `mu = 1`, from periapsis to the end of the parameter takes `16/3`. -/
example (i Ω ω : ℝ) :
    exactProp (coe2rv 4 1 i Ω ω 0 1).1 (coe2rv 4 1 i Ω ω 0 1).2 1 (16 / 3) = coe2rv 4 1 i Ω ω (Real.pi / 2) 1 := by
  have h4 : Real.sqrt 4 = 2 := by rw [show (4 : ℝ) = 2 ^ 2 by norm_num, Real.sqrt_sq (by norm_num)]
  refine C87_parabolic (by norm_num) one_pos i Ω ω (D0 := 0) (D := 2) ?_ ?_ ?_
  · constructor <;> norm_num
  · constructor <;> norm_num [h4]
  · norm_num

/-- Non-vacuity, and a returned true anomaly running backwards: on the way in, at rate -1. -/
example : HasDerivAt (fun t => (rv2coe (exactProp ⟨1, 0, 0⟩ ⟨-1, 1, 0⟩ 1 t).1 (exactProp ⟨1, 0, 0⟩ ⟨-1, 1, 0⟩ 1 t).2 (1 : ℝ)).true_anom)
    (-1) 0 := by
  have hh : angular_momentum (⟨1, 0, 0⟩ : V3 ℝ) ⟨-1, 1, 0⟩ ≠ ⟨0, 0, 0⟩ := by
    simp [angular_momentum, V3.cross]
  have hz := exactProp_zero (mu := 1) one_pos hh
  have he : eOf (⟨1, 0, 0⟩ : V3 ℝ) ⟨-1, 1, 0⟩ 1 ≠ 0 := by
    simp [eOf, eccentricity_vector, angular_momentum, V3.norm, V3.cross, V3.dot, sqrt_real]
  have h := C87_rate one_pos hh he (t := 0) (by rw [hz]; simp [V3.dot])
  rw [hz] at h
  refine h.congr_deriv ?_
  simp [V3.dot, V3.norm, angular_momentum, V3.cross, sqrt_real]

end Adx
