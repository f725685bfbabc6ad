import Verif.Props.C68f

/-! # C68, part 7: `kepler` in binary64 with its default settings -/

namespace Adx
open Spec V3

/-- C68, an instance: `kepler` in binary64, for every orbit of eccentricity at most 1/4 whose `1/a` is at least `1/50` (in the
units of the caller) and every time of flight of up to 159 revolutions (mean anomaly advance 1000): the components of the
position are within `1.61e-6 √(1/a)`, those of the velocity within `2.1e-6 √mu /a² + 8.1e-7 √(mu/a)`. -/
theorem C68_kepler_f64 {r v : V3 (Rnd F64)} {mu t : Rnd F64} (hmu : 0 < mu.val)
    (hh : angular_momentum r.re v.re ≠ ⟨0, 0, 0⟩) (hα : 1 / 50 ≤ alphaOf r.re v.re mu.val)
    (he : eOf r.re v.re mu.val ≤ 1 / 4) (hT : advance r v mu t ≤ 1000) :
    let α := alphaOf r.re v.re mu.val
    let εp := 1.61e-6 * Real.sqrt α
    let εv := 2.1e-6 * (Real.sqrt mu.val * α ^ 2) + 8.1e-7 * (Real.sqrt mu.val * Real.sqrt α)
    let X := exactProp r.re v.re mu.val t.val
    ∃ R V, kepler [t] r v mu = some ([R], [V]) ∧
      |R.x.val - X.1.x| ≤ εp ∧ |R.y.val - X.1.y| ≤ εp ∧ |R.z.val - X.1.z| ≤ εp ∧
      |V.x.val - X.2.x| ≤ εv ∧ |V.y.val - X.2.y| ≤ εv ∧ |V.z.val - X.2.z| ≤ εv := by
  intro α εp εv X
  obtain ⟨t1, t2⟩ := abs_le.1 tol64
  have hα0 : 0 < alphaOf r.re v.re mu.val := lt_of_lt_of_le (by norm_num) hα
  have hT0 := advance_nonneg (t := t) hα0
  have hw0 := Real.sqrt_nonneg mu.val
  have hu : (0 : ℝ) < 2 ^ (-53 : ℤ) := by positivity
  have hb0 : 0.14 ≤ Real.sqrt α := by
    refine Real.le_sqrt_of_sq_le ?_
    norm_num at hα ⊢
    linarith
  have hl : lossN 1 (advance r v mu t) ≤ 1795550 := by unfold lossN; linarith
  have hl0 : 0 ≤ lossN 1 (advance r v mu t) := by unfold lossN; positivity
  have hlu : lossN 1 (advance r v mu t) * 2 ^ (-53 : ℤ) ≤ 1795550 * 2 ^ (-53 : ℤ) := by gcongr
  have hg : gam (2 ^ (-53 : ℤ)) (lossN 1 (advance r v mu t)) ≤ 2e-10 := by
    unfold gam
    rw [div_le_iff₀ (by norm_num at hlu ⊢; linarith)]
    norm_num at hlu ⊢
    linarith
  have hg0 : 0 ≤ gam (2 ^ (-53 : ℤ)) (lossN 1 (advance r v mu t)) := by
    unfold gam
    refine div_nonneg (by positivity) ?_
    norm_num at hlu ⊢
    linarith
  have hab : 0.0028 ≤ alphaOf r.re v.re mu.val * Real.sqrt (alphaOf r.re v.re mu.val) := by
    calc (0.0028 : ℝ) = 1 / 50 * 0.14 := by norm_num
      _ ≤ _ := by gcongr
  have htol : (9.99e-7 : ℝ) ≤ (defaultTol : Rnd F64).val := by norm_num at t1 ⊢; linarith
  have htol2 : (defaultTol : Rnd F64).val ≤ 1.001e-6 := by norm_num at t2 ⊢; linarith
  have hab2 : 0.0028 * 9.99e-7 ≤ alphaOf r.re v.re mu.val * Real.sqrt (alphaOf r.re v.re mu.val)
    * (defaultTol : Rnd F64).val := by gcongr
  obtain ⟨R, V, hk, p1, p2, p3, v1, v2, v3⟩ := C68_kepler_lowecc stdModel_F64 hmu hh hα0 he (t := t)
    (hlu.trans (by norm_num)) (by norm_num at hg hab2 ⊢; linarith) (by norm_num at hab2 ⊢; linarith)
  have hp : 1.6 * Real.sqrt (alphaOf r.re v.re mu.val) * (defaultTol : Rnd F64).val ≤ εp := by
    calc 1.6 * Real.sqrt (alphaOf r.re v.re mu.val) * (defaultTol : Rnd F64).val
        ≤ 1.6 * Real.sqrt (alphaOf r.re v.re mu.val) * 1.001e-6 := by gcongr
      _ = 1.6016e-6 * Real.sqrt α := by ring
      _ ≤ _ := by simp only [εp]; gcongr; norm_num
  have hv : 2 * Real.sqrt mu.val * alphaOf r.re v.re mu.val ^ 2 * (defaultTol : Rnd F64).val
      + 4 * (advance r v mu t + 3) * gam (2 ^ (-53 : ℤ)) (lossN 1 (advance r v mu t))
        * (Real.sqrt mu.val * Real.sqrt (alphaOf r.re v.re mu.val)) ≤ εv := by
    have e1 : 2 * Real.sqrt mu.val * alphaOf r.re v.re mu.val ^ 2 * (defaultTol : Rnd F64).val
        ≤ 2.1e-6 * (Real.sqrt mu.val * α ^ 2) := by
      calc 2 * Real.sqrt mu.val * alphaOf r.re v.re mu.val ^ 2 * (defaultTol : Rnd F64).val
          ≤ 2 * Real.sqrt mu.val * alphaOf r.re v.re mu.val ^ 2 * 1.001e-6 := by gcongr
        _ = 2.002e-6 * (Real.sqrt mu.val * α ^ 2) := by ring
        _ ≤ _ := by gcongr; norm_num
    have e2 : 4 * (advance r v mu t + 3) * gam (2 ^ (-53 : ℤ)) (lossN 1 (advance r v mu t))
        * (Real.sqrt mu.val * Real.sqrt (alphaOf r.re v.re mu.val)) ≤ 8.1e-7 * (Real.sqrt mu.val * Real.sqrt α) := by
      refine mul_le_mul_of_nonneg_right ?_ (by positivity)
      calc 4 * (advance r v mu t + 3) * gam (2 ^ (-53 : ℤ)) (lossN 1 (advance r v mu t))
          ≤ 4 * (1000 + 3) * 2e-10 := by gcongr
        _ ≤ _ := by norm_num
    exact add_le_add e1 e2
  exact ⟨R, V, hk, p1.trans hp, p2.trans hp, p3.trans hp, v1.trans hv, v2.trans hv, v3.trans hv⟩

/-- The hypotheses are met by `r = (1, 0, 0)`, `v = (0, 17/16, 0)`, `mu = 1` (eccentricity 33/256, `1/a = 223/256`) and every
time of flight up to 1000. -/
example (t : Rnd F64) (ht : |t.val| ≤ 1000) :
    let r : V3 (Rnd F64) := ⟨⟨1⟩, ⟨0⟩, ⟨0⟩⟩
    let v : V3 (Rnd F64) := ⟨⟨0⟩, ⟨17 / 16⟩, ⟨0⟩⟩
    ∃ R V, kepler [t] r v ⟨1⟩ = some ([R], [V]) ∧
      |R.x.val - (exactProp r.re v.re 1 t.val).1.x| ≤ 1.61e-6 := by
  intro r v
  have hr : V3.norm r.re = 1 := by simp [r, V3.re, V3.norm, V3.dot]
  have hv : V3.norm v.re = 17 / 16 := by
    simp only [v, V3.re, V3.norm, V3.dot, sqrt_real]
    rw [show (0 : ℝ) * 0 + 17 / 16 * (17 / 16) + 0 * 0 = (17 / 16) ^ 2 by norm_num, Real.sqrt_sq (by norm_num)]
  have hα : alphaOf r.re v.re 1 = 223 / 256 := by rw [alphaOf, hr, hv]; norm_num [semimajor_axis]
  have he : eOf r.re v.re 1 = 33 / 256 := by
    have : eccentricity_vector r.re v.re 1 = ⟨33 / 256, 0, 0⟩ := by
      ext <;> simp [eccentricity_vector, hr, angular_momentum] <;> norm_num [r, v, V3.re]
    rw [eOf, this]
    simp only [V3.norm, V3.dot, sqrt_real]
    rw [show (33 / 256 : ℝ) * (33 / 256) + 0 * 0 + 0 * 0 = (33 / 256) ^ 2 by norm_num, Real.sqrt_sq (by norm_num)]
  have hs : Real.sqrt (223 / 256) ≤ 1 := Real.sqrt_le_one.2 (by norm_num)
  obtain ⟨R, V, hk, hx, -⟩ := C68_kepler_f64 (r := r) (v := v) (mu := ⟨1⟩) (t := t) one_pos
    (by simp [r, v, V3.re, angular_momentum, cross]) (by rw [hα]; norm_num) (by rw [he]; norm_num) (by
      rw [advance, hα, Real.sqrt_one, one_mul]
      have := abs_nonneg t.val
      have := Real.sqrt_nonneg (223 / 256)
      calc (223 / 256 : ℝ) * Real.sqrt (223 / 256) * |t.val| ≤ 1 * 1 * 1000 := by gcongr; norm_num
        _ = 1000 := by norm_num)
  refine ⟨R, V, hk, hx.trans ?_⟩
  rw [hα]
  norm_num at hs ⊢
  linarith

end Adx
