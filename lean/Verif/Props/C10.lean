import Verif.Lemmas.KepReal

/-! # C10, C11, C12: the three Kepler equations have exactly one root -/

namespace Adx
open V3

/-- C10: `dE` is the derivative of the elliptic Kepler function and is positive. -/
theorem C10_derivative {e : ℝ} (h0 : 0 ≤ e) (h1 : e < 1) (E M : ℝ) :
    HasDerivAt (fun E => kepler_equ_elps E e M) (dE E e) E ∧ 0 < dE E e :=
  ⟨hasDerivAt_elps E e M, by linarith [dE_ge h0 E]⟩

/-- C10: exactly one eccentric anomaly. -/
theorem C10_existsUnique {e : ℝ} (h0 : 0 ≤ e) (h1 : e < 1) (M : ℝ) :
    ∃! E, kepler_equ_elps E e M = 0 :=
  existsUnique_root (by linarith : 0 < 1 - e) (fun E => hasDerivAt_elps E e M) (dE_ge h0) 0

/-- C10: it is within `e` of the mean anomaly. -/
theorem C10_near_M {e : ℝ} (h0 : 0 ≤ e) {E M : ℝ} (h : kepler_equ_elps E e M = 0) : |E - M| ≤ e := by
  rw [kep_elps_eq] at h
  rw [show E - M = e * Real.sin E by linarith, abs_mul, abs_of_nonneg h0]
  nlinarith [Real.abs_sin_le_one E]

/-- C10: and it advances with the mean anomaly, by at least half its advance. -/
theorem C10_mono {e : ℝ} (h0 : 0 ≤ e) (h1 : e < 1) {E E' M M' : ℝ} (h : kepler_equ_elps E e M = 0)
    (h' : kepler_equ_elps E' e M' = 0) (hM : M < M') : E < E' ∧ (M' - M) / (1 + e) ≤ E' - E := by
  have hm := strictMono_of_slope (by linarith : 0 < 1 - e) (fun E => hasDerivAt_elps E e 0) (dE_ge h0)
  have hlt : E < E' := by
    rw [← hm.lt_iff_lt]
    rw [kep_elps_eq] at h h' ⊢
    rw [kep_elps_eq]; linarith
  refine ⟨hlt, ?_⟩
  rw [div_le_iff₀ (by linarith)]
  rw [kep_elps_eq] at h h'
  have hsin : |Real.sin E' - Real.sin E| ≤ |E' - E| := by
    have h : LipschitzWith 1 Real.sin := Real.lipschitzWith_sin
    simpa [Real.dist_eq] using h.dist_le_mul E' E
  rw [abs_of_pos (by linarith : 0 < E' - E)] at hsin
  have := (abs_le.1 hsin).1
  nlinarith

/-- C11: `dH` is the derivative of the hyperbolic Kepler function and is at least `e - 1 > 0`. -/
theorem C11_derivative {e : ℝ} (h1 : 1 < e) (H N : ℝ) :
    HasDerivAt (fun H => kepler_equ_hypb H e N) (dH H e) H ∧ e - 1 ≤ dH H e ∧ 0 < e - 1 :=
  ⟨hasDerivAt_hypb H e N, dH_ge (by linarith) H, by linarith⟩

/-- C11: exactly one hyperbolic anomaly. -/
theorem C11_existsUnique {e : ℝ} (h1 : 1 < e) (N : ℝ) : ∃! H, kepler_equ_hypb H e N = 0 :=
  existsUnique_root (by linarith : 0 < e - 1) (fun H => hasDerivAt_hypb H e N) (dH_ge (by linarith)) 0

/-- C12: the derivative of the universal Kepler function is the library's `equ_of_orb_uvi`, the radius, and
on a state with nonzero angular momentum it stays above a positive constant (the same for all `chi`). -/
theorem C12_derivative {r v : V3 ℝ} {mu : ℝ} (hmu : 0 < mu) (hh : angular_momentum r v ≠ ⟨0, 0, 0⟩)
    (t : ℝ) :
    let α := 1 / semimajor_axis (V3.norm r) (V3.norm v) mu
    let σ0 := sigma_fn r v mu
    ∃ m > 0, ∀ χ,
      HasDerivAt (fun χ => kepler_equ_uni χ α (V3.norm r) σ0 t mu)
        (equ_of_orb_uvi (ufunc0 χ α) (ufunc1 χ α) (ufunc2 χ α) (V3.norm r) σ0) χ ∧
      m ≤ equ_of_orb_uvi (ufunc0 χ α) (ufunc1 χ α) (ufunc2 χ α) (V3.norm r) σ0 := by
  intro α σ0
  have hα : α = invA r v mu := inv_semimajor_axis r v mu
  obtain ⟨h0, hp⟩ := state_invariant_pos hmu hh
  rw [← hα] at hp
  refine ⟨_, radBound_pos (α := α) hp, fun χ => ⟨hasDerivAt_uni χ α _ σ0 t mu, ?_⟩⟩
  have := radBound_le h0 hp χ
  rwa [← dchi_eq] at this

/-- C12: exactly one universal anomaly, for ellipses, parabolas and hyperbolas alike. -/
theorem C12_existsUnique {r v : V3 ℝ} {mu : ℝ} (hmu : 0 < mu) (hh : angular_momentum r v ≠ ⟨0, 0, 0⟩)
    (t : ℝ) :
    ∃! χ, kepler_equ_uni χ (1 / semimajor_axis (V3.norm r) (V3.norm v) mu) (V3.norm r)
      (sigma_fn r v mu) t mu = 0 := by
  obtain ⟨m, hm, h⟩ := C12_derivative hmu hh t
  exact existsUnique_root hm (fun χ => (h χ).1) (fun χ => (h χ).2) 0

/-- C12: the radius bound is explicit: `min 1 (p / (2 + |1/a|))` with `p` the semiparameter. -/
theorem C12_radius_bound {r v : V3 ℝ} {mu : ℝ} (hmu : 0 < mu) (hh : angular_momentum r v ≠ ⟨0, 0, 0⟩)
    (χ : ℝ) :
    let α := 1 / semimajor_axis (V3.norm r) (V3.norm v) mu
    min 1 (semiparameter (V3.norm (angular_momentum r v)) mu / (2 + |α|))
      ≤ equ_of_orb_uvi (ufunc0 χ α) (ufunc1 χ α) (ufunc2 χ α) (V3.norm r) (sigma_fn r v mu) := by
  intro α
  have hα : α = invA r v mu := inv_semimajor_axis r v mu
  obtain ⟨h0, hp⟩ := state_invariant_pos hmu hh
  have hr : r ≠ ⟨0, 0, 0⟩ := (norm_pos r).1 h0
  have hinv := state_invariant (v := v) hr hmu
  have := radBound_le h0 hp χ
  rw [hinv, ← hα, ← dchi_eq] at this
  rw [semiparameter_eq]
  exact this

/-- A parabolic state with nonzero angular momentum meets the hypotheses. -/
example : angular_momentum (⟨1, 0, 0⟩ : V3 ℝ) ⟨1, 1, 0⟩ ≠ ⟨0, 0, 0⟩ ∧
    1 / semimajor_axis (V3.norm (⟨1, 0, 0⟩ : V3 ℝ)) (V3.norm (⟨1, 1, 0⟩ : V3 ℝ)) 1 = 0 := by
  constructor
  · simp [angular_momentum, cross]
  · rw [inv_semimajor_axis]
    have h : V3.norm (⟨1, 0, 0⟩ : V3 ℝ) = 1 := by simp [V3.norm, dot]
    simp only [invA, h, dot]; norm_num

end Adx
