import Verif.Lemmas.Anomaly

/-! # C54: `orb_period` is the least period, and the path never crosses itself

C24 shows that the motion on an ellipse repeats after `orb_period`. Here: it never repeats earlier, not even
in position alone; and on parabolas and hyperbolas no position is ever visited twice. -/

namespace Adx
open V3 Spec

variable {r v : V3 ℝ} {mu : ℝ}

/-- Independence of position and velocity. -/
theorem comb_eq_self (hh : cross r v ≠ ⟨0, 0, 0⟩) {F G : ℝ} (h : F • r + G • v = r) : F = 1 ∧ G = 0 := by
  have h1 : (F - 1) • cross r v = ⟨0, 0, 0⟩ := by
    have := congrArg (fun x => cross x v) h
    have e : cross (F • r + G • v) v = F • cross r v := by
      ext <;> simp only [cross, add_x, add_y, add_z, smul_x, smul_y, smul_z] <;> ring
    rw [e] at this
    have hx := congrArg V3.x this
    have hy := congrArg V3.y this
    have hz := congrArg V3.z this
    simp only [smul_x, smul_y, smul_z] at hx hy hz
    ext <;> simp only [smul_x, smul_y, smul_z] <;> linarith
  have h2 : G • cross r v = ⟨0, 0, 0⟩ := by
    have := congrArg (fun x => cross r x) h
    have e : cross r (F • r + G • v) = G • cross r v := by
      ext <;> simp only [cross, add_x, add_y, add_z, smul_x, smul_y, smul_z] <;> ring
    have e' : cross r r = ⟨0, 0, 0⟩ := by
      ext <;> simp only [cross] <;> ring
    rw [e, e'] at this
    exact this
  have key : ∀ c : ℝ, c • cross r v = ⟨0, 0, 0⟩ → c = 0 := by
    intro c hc
    by_contra hc0
    apply hh
    have hx := congrArg V3.x hc
    have hy := congrArg V3.y hc
    have hz := congrArg V3.z hc
    simp only [smul_x, smul_y, smul_z, mul_eq_zero, hc0, false_or] at hx hy hz
    ext <;> assumption
  exact ⟨by linarith [key _ h1], key _ h2⟩

variable (hmu : 0 < mu) (hh : angular_momentum r v ≠ ⟨0, 0, 0⟩)
include hmu hh

/-- If the position returns, the universal function `U2` of the root vanishes. -/
theorem U2_of_return {t : ℝ} (h : (exactProp r v mu t).1 = r) : U 2 (exactChi r v mu t) (alphaOf r v mu) = 0 := by
  have hn : V3.norm r ≠ 0 := ((norm_pos r).2 (pos_ne hmu hh)).ne'
  rw [exactProp_eq] at h
  have h1 := (comb_eq_self hh h).1
  rw [cF] at h1
  have : U 2 (exactChi r v mu t) (alphaOf r v mu) / V3.norm r = 0 := by linarith
  exact (div_eq_zero_iff.1 this).resolve_right hn

/-- C54: on an ellipse the position at time `t` is the initial position iff `t` is a whole number of
`orb_period`s, and then the velocity is the initial one as well. -/
theorem C54_elliptic_return (ha : 0 < aOf r v mu) (t : ℝ) :
    ((exactProp r v mu t).1 = r ↔ ∃ k : ℤ, t = k * orb_period (aOf r v mu) mu) ∧
    (exactProp r v mu t = (r, v) ↔ ∃ k : ℤ, t = k * orb_period (aOf r v mu) mu) := by
  have hb : 0 < Real.sqrt (aOf r v mu) := Real.sqrt_pos.2 ha
  have hs : 0 < Real.sqrt mu := Real.sqrt_pos.2 hmu
  have hα := alphaOf_elps ha
  have hP : orb_period (aOf r v mu) mu = 2 * Real.pi * (Real.sqrt (aOf r v mu) ^ 3 / Real.sqrt mu) := by
    simp only [orb_period, Nat.cast_ofNat, pi_real, sqrt_real]
    rw [show aOf r v mu ^ 3 / mu = (Real.sqrt (aOf r v mu) ^ 3) ^ 2 / mu by
        rw [← pow_mul, show 3 * 2 = 2 * 3 by norm_num, pow_mul, Real.sq_sqrt ha.le],
      Real.sqrt_div (by positivity), Real.sqrt_sq (by positivity)]
  have hret : (exactProp r v mu t).1 = r → ∃ k : ℤ, t = k * orb_period (aOf r v mu) mu := by
    intro h
    have hU := U2_of_return hmu hh h
    have hk := kepU_exactChi hmu hh t
    rw [hα] at hU hk
    obtain ⟨-, h1, h2, h3⟩ := U_elps hb (exactChi r v mu t)
    rw [h2] at hU
    have hc : Real.cos (exactChi r v mu t / Real.sqrt (aOf r v mu)) = 1 := by
      have := (mul_eq_zero.1 hU).resolve_left (pow_ne_zero 2 hb.ne')
      linarith
    obtain ⟨k, hk2⟩ := (Real.cos_eq_one_iff _).1 hc
    have hsin : Real.sin (exactChi r v mu t / Real.sqrt (aOf r v mu)) = 0 := by
      rw [← hk2, show (k : ℝ) * (2 * Real.pi) = ((2 * k : ℤ) : ℝ) * Real.pi by push_cast; ring]
      exact Real.sin_int_mul_pi _
    rw [kepU, h1, h2, h3, hc, hsin, ← hk2] at hk
    refine ⟨k, ?_⟩
    rw [hP]
    field_simp
    linarith
  have hback : (∃ k : ℤ, t = k * orb_period (aOf r v mu) mu) → exactProp r v mu t = (r, v) := by
    rintro ⟨k, rfl⟩
    obtain ⟨-, h1, h2, h3⟩ := U_elps hb (Real.sqrt (aOf r v mu) * (k * (2 * Real.pi)))
    have hx : Real.sqrt (aOf r v mu) * (k * (2 * Real.pi)) / Real.sqrt (aOf r v mu) = k * (2 * Real.pi) := by
      field_simp
    have hsin : Real.sin (k * (2 * Real.pi)) = 0 := by
      rw [show (k : ℝ) * (2 * Real.pi) = ((2 * k : ℤ) : ℝ) * Real.pi by push_cast; ring]
      exact Real.sin_int_mul_pi _
    rw [hx, Real.cos_int_mul_two_pi] at h2
    rw [hx, hsin] at h1 h3
    have hχ : exactChi r v mu (k * orb_period (aOf r v mu) mu) = Real.sqrt (aOf r v mu) * (k * (2 * Real.pi)) := by
      refine (exactChi_unique hmu hh (isRoot_iff.2 ?_)).symm
      rw [hα, kepU, h1, h2, h3, hP]
      field_simp
      ring
    rw [exactProp_eq, hχ, hα]
    simp only [cF, cG, cFt, cGt, h1, h2]
    refine Prod.ext ?_ ?_ <;> ext <;> simp
  exact ⟨⟨hret, fun h => by rw [hback h]⟩, ⟨fun h => hret (by rw [h]), hback⟩⟩

/-- C54: on a parabola or hyperbola the position never returns. -/
theorem C54_open_no_return (ha : alphaOf r v mu ≤ 0) (t : ℝ) : (exactProp r v mu t).1 = r ↔ t = 0 := by
  have hs : 0 < Real.sqrt mu := Real.sqrt_pos.2 hmu
  constructor
  · intro h
    have hU := U2_of_return hmu hh h
    have hk := kepU_exactChi hmu hh t
    have hχ : exactChi r v mu t = 0 := by
      rcases ha.lt_or_eq with hα | hα
      · have hb : 0 < Real.sqrt (1 / -alphaOf r v mu) := Real.sqrt_pos.2 (one_div_pos.2 (by linarith))
        have hα' : alphaOf r v mu = -(1 / Real.sqrt (1 / -alphaOf r v mu) ^ 2) := by
          rw [Real.sq_sqrt (one_div_pos.2 (by linarith)).le, one_div_one_div, neg_neg]
        rw [hα', (U_hypb hb _).2.2.1] at hU
        have h1 := (mul_eq_zero.1 hU).resolve_left (pow_ne_zero 2 hb.ne')
        have h2 : Real.cosh (exactChi r v mu t / Real.sqrt (1 / -alphaOf r v mu)) = 1 := by linarith
        have h3 : exactChi r v mu t / Real.sqrt (1 / -alphaOf r v mu) = 0 := by
          by_contra h0
          exact absurd h2 (Real.one_lt_cosh.2 h0).ne'
        exact (div_eq_zero_iff.1 h3).resolve_right hb.ne'
      · rw [hα, U_zero_right] at hU
        have : exactChi r v mu t ^ 2 = 0 := by
          rcases div_eq_zero_iff.1 hU with h | h
          · exact h
          · norm_num at h
        exact pow_eq_zero_iff (two_ne_zero) |>.1 this
    rw [hχ, kepU_zero] at hk
    exact (mul_eq_zero.1 hk.symm).resolve_left hs.ne'
  · rintro rfl; rw [exactProp_zero hmu hh]

theorem exactProp_shift (t1 t2 : ℝ) :
    angular_momentum (exactProp r v mu t1).1 (exactProp r v mu t1).2 ≠ ⟨0, 0, 0⟩ ∧
    exactProp (exactProp r v mu t1).1 (exactProp r v mu t1).2 mu (t2 - t1) = exactProp r v mu t2 := by
  refine ⟨?_, ?_⟩
  · have : angular_momentum (exactProp r v mu t1).1 (exactProp r v mu t1).2 = angular_momentum r v :=
      step_h (pos_ne hmu hh) hmu (radOf_pos hmu hh).ne'
    rw [this]; exact hh
  · rw [C24_composition hmu hh]; congr 1; ring

/-- C54: on an ellipse two positions of the motion coincide iff their times differ by a whole number of
`orb_period`s; so `orb_period` is the least period and the path does not cross itself. -/
theorem C54_elliptic_least_period (ha : 0 < aOf r v mu) (t1 t2 : ℝ) :
    (exactProp r v mu t2).1 = (exactProp r v mu t1).1 ↔ ∃ k : ℤ, t2 - t1 = k * orb_period (aOf r v mu) mu := by
  obtain ⟨h1, h2⟩ := exactProp_shift hmu hh t1 t2
  have h3 := step_aOf hmu hh t1
  have := (C54_elliptic_return hmu h1 (by rw [h3]; exact ha) (t2 - t1)).1
  rwa [h2, h3] at this

/-- C54: on a parabola or hyperbola all positions of the motion are distinct. -/
theorem C54_open_injective (ha : alphaOf r v mu ≤ 0) :
    Function.Injective fun t => (exactProp r v mu t).1 := by
  intro t2 t1 h
  obtain ⟨h1, h2⟩ := exactProp_shift hmu hh t1 t2
  have h3 : alphaOf (exactProp r v mu t1).1 (exactProp r v mu t1).2 mu = alphaOf r v mu := by
    have := step_aOf hmu hh t1
    simp only [aOf] at this
    rw [alphaOf, alphaOf, this]
  have := (C54_open_no_return hmu h1 (by rw [h3]; exact ha) (t2 - t1)).1 (by rw [h2]; exact h)
  linarith

omit hmu hh in
/-- The hypotheses of both halves are met: a circular orbit and a hyperbolic one. -/
example : (0 : ℝ) < aOf ⟨1, 0, 0⟩ ⟨0, 1, 0⟩ 1 ∧ alphaOf ⟨1, 0, 0⟩ ⟨0, 2, 0⟩ 1 ≤ 0 ∧
    angular_momentum (⟨1, 0, 0⟩ : V3 ℝ) ⟨0, 1, 0⟩ ≠ ⟨0, 0, 0⟩ ∧
    angular_momentum (⟨1, 0, 0⟩ : V3 ℝ) ⟨0, 2, 0⟩ ≠ ⟨0, 0, 0⟩ := by
  have h1 : V3.norm (⟨1, 0, 0⟩ : V3 ℝ) = 1 := by rw [norm_unfold]; norm_num
  have h2 : V3.norm (⟨0, 1, 0⟩ : V3 ℝ) = 1 := by rw [norm_unfold]; norm_num
  have h3 : V3.norm (⟨0, 2, 0⟩ : V3 ℝ) ^ 2 = 4 := by rw [norm_sq]; simp only [V3.dot]; norm_num
  refine ⟨by rw [aOf, semimajor_axis, h1, h2]; norm_num, by rw [alphaOf, semimajor_axis, h1, h3]; norm_num, ?_, ?_⟩
  · intro h; have := congrArg V3.z h; simp [angular_momentum, V3.cross] at this
  · intro h; have := congrArg V3.z h; simp [angular_momentum, V3.cross] at this

end Adx
