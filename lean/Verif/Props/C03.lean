import Verif.Model.OrbIntegrals
import Verif.Lemmas.RealVec

/-! # C03: size/shape conversions and apsides -/

namespace Adx

/-- C03: `a → p → a`. -/
theorem C03_a_from_pe_semipara (a : ℝ) {e : ℝ} (he : e ^ 2 ≠ 1) :
    a_from_pe (semipara_from_ae a e) e = a := by
  have h : 1 - e ^ 2 ≠ 0 := fun h => he (by linarith)
  simp only [a_from_pe, semipara_from_ae, Nat.cast_one]
  field_simp

/-- C03: `p → a → p`. -/
theorem C03_semipara_a_from_pe (p : ℝ) {e : ℝ} (he : e ^ 2 ≠ 1) :
    semipara_from_ae (a_from_pe p e) e = p := by
  have h : 1 - e ^ 2 ≠ 0 := fun h => he (by linarith)
  simp only [a_from_pe, semipara_from_ae, Nat.cast_one]
  field_simp

/-- C03: on an ellipse the semimajor axis is the mean of the apsis radii, their product is `a p`, and
they are ordered. -/
theorem C03_apsides {p e : ℝ} (hp : 0 < p) (he : 0 ≤ e) (he1 : e < 1) :
    radius_periapsis p e ≤ a_from_pe p e ∧ a_from_pe p e ≤ radius_apoapsis p e ∧
    radius_periapsis p e + radius_apoapsis p e = 2 * a_from_pe p e ∧
    radius_periapsis p e * radius_apoapsis p e = a_from_pe p e * p := by
  have h1 : 0 < 1 + e := by linarith
  have h2 : 0 < 1 - e := by linarith
  have h3 : 1 - e ^ 2 = (1 - e) * (1 + e) := by ring
  simp only [a_from_pe, radius_periapsis, radius_apoapsis, Nat.cast_one, h3]
  refine ⟨?_, ?_, by field_simp; ring, by field_simp⟩
  · gcongr; nlinarith
  · gcongr; nlinarith

/-- C03: `a (1 ∓ e)` are the apsis radii of the ellipse with semimajor axis `a`. -/
theorem C03_apsides_from_a {a e : ℝ} (he : 0 ≤ e) (he1 : e < 1) :
    radius_periapsis (semipara_from_ae a e) e = a * (1 - e) ∧
    radius_apoapsis (semipara_from_ae a e) e = a * (1 + e) := by
  have h1 : 1 + e ≠ 0 := by linarith
  have h2 : 1 - e ≠ 0 := by linarith
  simp only [semipara_from_ae, radius_periapsis, radius_apoapsis, Nat.cast_one]
  constructor <;> field_simp <;> ring

/-- C03: the periapsis is the closest point of every conic, attained at `f = 0`. -/
theorem C03_periapsis_le {p e f : ℝ} (hp : 0 < p) (he : 0 ≤ e) (hf : 0 < 1 + e * Real.cos f) :
    radius_periapsis p e ≤ equ_of_orbit p e f ∧ equ_of_orbit p e 0 = radius_periapsis p e := by
  simp only [radius_periapsis, equ_of_orbit, Nat.cast_one, cos_real, Real.cos_zero, mul_one, and_true]
  gcongr
  exact mul_le_of_le_one_right he (Real.cos_le_one f)

/-- C03: the apoapsis is the farthest point of every ellipse, attained at `f = π`. -/
theorem C03_le_apoapsis {p e : ℝ} (f : ℝ) (hp : 0 < p) (he : 0 ≤ e) (he1 : e < 1) :
    equ_of_orbit p e f ≤ radius_apoapsis p e ∧
      equ_of_orbit p e Real.pi = radius_apoapsis p e := by
  simp only [radius_apoapsis, equ_of_orbit, Nat.cast_one, cos_real, Real.cos_pi]
  refine ⟨?_, by ring⟩
  have h1 : 0 < 1 - e := by linarith
  gcongr
  have := Real.neg_one_le_cos f
  nlinarith

/-- C03: a closed conic is bounded, an open one is not: for `e ≥ 1` there are points of the orbit
beyond every radius. -/
theorem C03_open_orbit_unbounded {p e : ℝ} (hp : 0 < p) (he : 1 ≤ e) (R : ℝ) :
    ∃ f, 0 < 1 + e * Real.cos f ∧ R < equ_of_orbit p e f := by
  -- choose cos f = (-1 + d)/e with 0 < d small
  set d : ℝ := min 1 (p / (2 * (|R| + 1))) with hd
  have hR : 0 < |R| + 1 := by positivity
  have hd0 : 0 < d := lt_min one_pos (by positivity)
  have hd1 : d ≤ 1 := min_le_left _ _
  have hd2 : d ≤ p / (2 * (|R| + 1)) := min_le_right _ _
  have he0 : 0 < e := by linarith
  have hc : Real.cos (Real.arccos ((-1 + d) / e)) = (-1 + d) / e := by
    apply Real.cos_arccos
    · rw [le_div_iff₀ he0]; linarith
    · rw [div_le_one he0]; linarith
  refine ⟨Real.arccos ((-1 + d) / e), ?_, ?_⟩
  · rw [hc]; field_simp; linarith
  · simp only [equ_of_orbit, cos_real, hc, Nat.cast_one]
    rw [show 1 + e * ((-1 + d) / e) = d by field_simp; ring, lt_div_iff₀ hd0]
    have h1 : d * (2 * (|R| + 1)) ≤ p := by
      rwa [le_div_iff₀ (by positivity)] at hd2
    have := le_abs_self R
    nlinarith

/-- Non-vacuity: p = 3/4, e = 1/2: apsides 1/2 and 3/2, semimajor axis 1. -/
example : radius_periapsis (3 / 4 : ℝ) (1 / 2) = 1 / 2 ∧ radius_apoapsis (3 / 4 : ℝ) (1 / 2) = 3 / 2 ∧
    a_from_pe (3 / 4 : ℝ) (1 / 2) = 1 := by
  simp only [radius_periapsis, radius_apoapsis, a_from_pe]; norm_num

end Adx
