import Verif.Props.C68c
import Verif.Lemmas.Formats

/-! # C68: hyperbolas, the universal solver on its own, and instances -/

namespace Adx
open Spec V3

section
variable {F : Fp} {u L : ℝ} (hF : StdModel F u L)
include hF

theorem eta_le : eta u ≤ 2 * u := by
  have h0 := hF.u_pos
  have h1 := hF.u_small
  have := Real.one_sub_inv_le_log_of_pos (x := 1 - u) (by linarith)
  have h2 : (1 - u)⁻¹ ≤ 1 + 2 * u := by
    rw [inv_le_iff_one_le_mul₀ (by linarith)]; nlinarith
  rw [eta]; linarith

/-- C68, rounded arithmetic, hyperbolas: as `C68_kepler_elliptic`, with `y = √(-α) X`; the number `K` of rounding errors
in the universal functions grows with `y`, the relative error of `cosh y` and `sinh y` being `y` times that of `y`. -/
theorem C68_kepler_hyperbolic {r v : V3 (Rnd F)} {mu t : Rnd F} (hmu : 0 < mu.val)
    (hh : angular_momentum r.re v.re ≠ ⟨0, 0, 0⟩) (hα : alphaOf r.re v.re mu.val < 0) {c : ℝ}
    (hc : 2 / V3.norm r.re + V3.norm v.re ^ 2 / mu.val ≤ c * |alphaOf r.re v.re mu.val|)
    {k : ℕ} {chi chip : Rnd F}
    (hrun : uniRun t (alphaR r v mu) (V3.norm r) (sigma_fn r v mu) mu defaultTol 50 = some (k, chi, chip))
    (hk : k < 50) {X : ℝ} (hX : |chi.val| ≤ X) :
    let α := alphaOf r.re v.re mu.val
    let r0 := V3.norm r.re
    let s := V3.norm r.re * V3.norm v.re / Real.sqrt mu.val
    let q := radius_periapsis (semiparameter (V3.norm (angular_momentum r.re v.re)) mu.val)
      (V3.norm (eccentricity_vector r.re v.re mu.val))
    let w := Real.sqrt mu.val
    let b := Real.sqrt (-α)
    let y := b * X
    let K := (16 * c + 6) * y + 32 * c + L + 11
    let m1 := Real.sinh y / b
    let m2 := (Real.cosh y + 1) / -α
    let ε := (defaultTol : Rnd F).val
      + gam u (K + 9) * (r0 * m1 + s * m2 + (y + Real.sinh y) / -α / b + w * |t.val|)
    2 * ((K + 11) * u) ≤ 1 →
    ∃ R V, kepler [t] r v mu = some ([R], [V]) ∧
      CompErr R (exactProp r.re v.re mu.val t.val).1 r.re v.re (Real.sqrt (2 / q - α) * ε)
        (gam u (K + 11) * (1 + m2 / r0)) (gam u (K + 11) * ((r0 * m1 + s * m2) / w)) ∧
      ∀ cr, r0 * Real.cosh y + s * m1 + m2 ≤ cr * q → 5 * (cr * (K + 8) * u) ≤ 1 →
        CompErr V (exactProp r.re v.re mu.val t.val).2 r.re v.re (w / q ^ 2 * ε)
          (gam u (K + 2 * cr * (K + 8) + 9) * (w / q * m1 / r0)) (gam u (K + 2 * cr * (K + 8) + 9) * (1 + m2 / q)) := by
  intro α r0 s q w b y K m1 m2 ε hK
  have hL1 := hF.one_le
  have hu0 := hF.u_pos
  have hu1 := hF.u_small
  have hX0 : 0 ≤ X := (abs_nonneg _).trans hX
  have hr0 : 0 ≤ r0 := V3.norm_nonneg _
  have hα' : 0 < -α := neg_pos.2 hα
  have hb : 0 < b := Real.sqrt_pos.2 hα'
  have hy0 : 0 ≤ y := by positivity
  have hc0 : 0 ≤ c := by
    have h : 0 ≤ 2 / V3.norm r.re + V3.norm v.re ^ 2 / mu.val := by
      have := V3.norm_nonneg r.re
      positivity
    exact nonneg_of_mul_nonneg_left (h.trans hc) (abs_pos.2 hα.ne)
  have hcu : 64 * (c * u) ≤ 1 := by
    have h1 : 0 ≤ (16 * c + 6) * y * u := by positivity
    have h2 : (K + 11) * u = (16 * c + 6) * y * u + 32 * (c * u) + (L + 22) * u := by simp only [K]; ring
    have h3 : 0 ≤ (L + 22) * u := by positivity
    linarith
  obtain ⟨hkep, hf⟩ := kepler_row_rnd hrun hk
  have hw := within_alpha hF r v mu hmu hα.ne hc (by nlinarith)
  have hη := eta_le hF
  have hκ : ((16 * c + 2) / 2 + 2) * eta u ≤ 1 := by
    calc ((16 * c + 2) / 2 + 2) * eta u ≤ ((16 * c + 2) / 2 + 2) * (2 * u) := by gcongr
      _ ≤ 1 := by nlinarith
  have hyX : b * |chi.val| ≤ y := mul_le_mul_of_nonneg_left hX hb.le
  have hy1 : 0 ≤ b * |chi.val| := by positivity
  have hcosh : Real.cosh (b * |chi.val|) ≤ Real.cosh y := by
    rw [Real.cosh_le_cosh, abs_of_nonneg hy1, abs_of_nonneg hy0]; exact hyX
  have hsinh : Real.sinh (b * |chi.val|) ≤ Real.sinh y := Real.sinh_le_sinh.2 hyX
  have hU : UBnd u K (Real.cosh y) m1 m2 ((y + Real.sinh y) / -α / b) chi (alphaR r v mu) α := by
    refine UBnd.mono hF (ubnd_hyperbolic hF hα hw hκ) ?_ hcosh ?_ ?_ ?_
    · simp only [K]
      have : (16 * c + 2 + 4) * (b * |chi.val|) ≤ (16 * c + 6) * y := by
        rw [show 16 * c + 2 + 4 = 16 * c + 6 by ring]; gcongr
      change (16 * c + 2 + 4) * (b * |chi.val|) + 2 * (16 * c + 2) + L + 7 ≤ _
      linarith
    · change Real.sinh (b * |chi.val|) / b ≤ _
      exact div_le_div_of_nonneg_right hsinh hb.le
    · change (Real.cosh (b * |chi.val|) + 1) / -α ≤ _
      exact div_le_div_of_nonneg_right (by linarith) hα'.le
    · change (b * |chi.val| + Real.sinh (b * |chi.val|)) / -α / b ≤ _
      exact div_le_div_of_nonneg_right (div_le_div_of_nonneg_right (by linarith) hα'.le) hb.le
  obtain ⟨h1, h2⟩ := row_err hF (t := t) hmu hh hU (by linarith)
  have hε : |(kepler_equ_uni chi (alphaR r v mu) (V3.norm r) (sigma_fn r v mu) t mu).val| +
      gam u (K + 9) * (r0 * m1 + s * m2 + (y + Real.sinh y) / -α / b + w * |t.val|) ≤ ε := add_le_add hf le_rfl
  have hmono : ∀ {A : V3 (Rnd F)} {B a b : V3 ℝ} {e e' c d : ℝ}, e ≤ e' → CompErr A B a b e c d →
      CompErr A B a b e' c d := fun h ⟨x, y, z⟩ =>
    ⟨x.trans (add_le_add h le_rfl), y.trans (add_le_add h le_rfl), z.trans (add_le_add h le_rfl)⟩
  have hq : 0 < q := qOf_pos hmu hh
  refine ⟨_, _, hkep, hmono (mul_le_mul_of_nonneg_left hε (Real.sqrt_nonneg _)) h1, fun cr hcr hcu => ?_⟩
  refine hmono (mul_le_mul_of_nonneg_left hε (div_nonneg (Real.sqrt_nonneg _) (by positivity)))
    (h2 cr hcr hcu ?_)
  have : (K + 2 * cr * (K + 8) + 9) * u = K * u + 2 / 5 * (5 * (cr * (K + 8) * u)) + 9 * u := by ring
  rw [this]; linarith

/-- C68, universal solver with an elliptic `alpha`: if the loop stops on its test, the returned value is within
`(tol + γ_{L+15} (r0 |χ| + |σ0| (2 + √α |χ|)/α + 2 |χ|/α + √mu |t|)) / q` of the exact root, `q` the bound of C12 on the
radius. -/
theorem C68_uni {t alpha r0 sigma0 mu tol : Rnd F} (hα : 0 < alpha.val) (hr0 : 0 < r0.val)
    (hp : 0 < 2 * r0.val - alpha.val * r0.val ^ 2 - sigma0.val ^ 2) {max_iter k : ℕ} {chi chip : Rnd F}
    (hrun : uniRun t alpha r0 sigma0 mu tol max_iter = some (k, chi, chip)) (hk : k < max_iter) :
    let χ := |chi.val|
    let M := r0.val * χ + |sigma0.val| * ((2 + Real.sqrt alpha.val * χ) / alpha.val) + 2 * χ / alpha.val
      + Real.sqrt mu.val * |t.val|
    let q := min 1 ((2 * r0.val - alpha.val * r0.val ^ 2 - sigma0.val ^ 2) / (2 + |alpha.val|))
    solve_kepler_uni t alpha r0 sigma0 mu tol max_iter = some chi ∧
    ∀ χs, kepler_equ_uni χs alpha.val r0.val sigma0.val t.val mu.val = 0 →
      |chi.val - χs| ≤ (tol.val + gam u (L + 15) * M) / q := by
  intro χ M q
  have hL1 := hF.one_le
  have hL2 := hF.le_hundred
  obtain ⟨k', -, hr, hs, -, hstop⟩ := C13_uni t alpha r0 sigma0 mu tol max_iter
  rw [hr] at hrun
  simp only [Option.some.injEq, Prod.mk.injEq] at hrun
  obtain ⟨rfl, rfl, rfl⟩ := hrun
  have hst := hstop hk
  simp only [Rnd.lt_rnd, Rnd.val_abs, decide_eq_false_iff_not, not_lt] at hst
  refine ⟨hs, fun χs hχs => ?_⟩
  set chi := (newtonUni t alpha r0 sigma0 mu)^[k'] (uniStart t alpha mu)
  have hU := ubnd_elliptic hF (chi := chi) hα (.ex alpha)
  have hb := ((near_kepler_uni hF hU ((Within.ex r0).mono hF (by norm_num)) hr0.le
    ((exN hF sigma0).mono hF (by norm_num) le_rfl) t mu).mono hF (j := L + 15) (by linarith) le_rfl).bound hF
    (by linarith) (ku_lt hF (by linarith))
  have hq : 0 < q := radBound_pos hp
  have hsl := abs_sub_le_of_slope hq (fun χ => by
      have := hasDerivAt_uni χ alpha.val r0.val sigma0.val t.val mu.val
      rwa [dchi_eq] at this) (radBound_le (α := alpha.val) (σ0 := sigma0.val) hr0 hp) chi.val χs
  rw [hχs, sub_zero] at hsl
  refine hsl.trans (div_le_div_of_nonneg_right ?_ hq.le)
  have : ∀ a b : ℝ, |b| ≤ |a| + |a - b| := fun a b => by
    calc |b| = |a - (a - b)| := by ring_nf
      _ ≤ _ := abs_sub _ _
  exact (this _ _).trans (add_le_add hst hb)

end

/-! ### The unit circle in binary64 -/

theorem circle_exact (t : ℝ) : exactProp ⟨1, 0, 0⟩ ⟨0, 1, 0⟩ 1 t
    = (⟨Real.cos t, Real.sin t, 0⟩, ⟨-Real.sin t, Real.cos t, 0⟩) := by
  have hh : angular_momentum (⟨1, 0, 0⟩ : V3 ℝ) ⟨0, 1, 0⟩ ≠ ⟨0, 0, 0⟩ := by simp [angular_momentum, cross]
  have hα : alphaOf ⟨1, 0, 0⟩ ⟨0, 1, 0⟩ 1 = 1 := by norm_num [alphaOf, semimajor_axis, V3.norm, V3.dot]
  have hn : V3.norm (⟨1, 0, 0⟩ : V3 ℝ) = 1 := by simp [V3.norm, V3.dot]
  have hσ : sigma_fn (⟨1, 0, 0⟩ : V3 ℝ) ⟨0, 1, 0⟩ 1 = 0 := by simp [sigma_fn, V3.dot]
  have hroot : IsRoot ⟨1, 0, 0⟩ ⟨0, 1, 0⟩ 1 t t := by
    rw [IsRoot, hα, hn, hσ]
    simp [kepler_equ_uni, ufunc1, ufunc3]
  rw [exactProp, ← exactChi_unique one_pos hh hroot, stepOf, hα, hn, hσ]
  simp [keplerStep, lagrange_prop, lagrange_F, lagrange_G, lagrange_Ft, lagrange_Gt, equ_of_orb_uvi, ufunc0, ufunc1,
    ufunc2]
  constructor <;> ext <;> simp

section
variable {F : Fp} {u L : ℝ} (hF : StdModel F u L)
include hF

/-- What the unit circle looks like in rounded arithmetic: all the numbers before the root search are exact, and so is the
starting value of the search. -/
theorem circle_rnd (t : Rnd F) (ht : F.rd t.val = t.val) :
    let r : V3 (Rnd F) := ⟨⟨1⟩, ⟨0⟩, ⟨0⟩⟩
    let v : V3 (Rnd F) := ⟨⟨0⟩, ⟨1⟩, ⟨0⟩⟩
    (alphaR r v (⟨1⟩ : Rnd F)).val = 1 ∧ (V3.norm r).val = 1 ∧ (sigma_fn r v (⟨1⟩ : Rnd F)).val = 0 ∧
      (uniStart t (alphaR r v (⟨1⟩ : Rnd F)) ⟨1⟩).val = t.val := by
  intro r v
  have z := rd_zero_std hF
  have o : F.rd 1 = 1 := by simpa using hF.lit 1 (by norm_num)
  have tw : F.rd 2 = 2 := by simpa using hF.lit 2 (by norm_num)
  have hr : (V3.norm r).val = 1 := by
    change F.rd (Real.sqrt (F.rd (F.rd (F.rd (1 * 1) + F.rd (0 * 0)) + F.rd (0 * 0)))) = 1
    simp [z, o]
  have hv : (V3.norm v).val = 1 := by
    change F.rd (Real.sqrt (F.rd (F.rd (F.rd (0 * 0) + F.rd (1 * 1)) + F.rd (0 * 0)))) = 1
    simp [z, o]
  have ha : (alphaR r v (⟨1⟩ : Rnd F)).val = 1 := by
    simp only [alphaR, semimajor_axis, Rnd.val_div, Rnd.val_sub, Rnd.val_natCast, Rnd.val_sq, hr, hv]
    norm_num [o, tw]
  refine ⟨ha, hr, ?_, ?_⟩
  · change F.rd (F.rd (F.rd (F.rd (1 * 0) + F.rd (0 * 1)) + F.rd (0 * 0)) / F.rd (Real.sqrt 1)) = 0
    simp [z]
  · change F.rd (F.rd (F.rd (Real.sqrt 1) * |(alphaR r v (⟨1⟩ : Rnd F)).val|) * t.val) = t.val
    rw [ha]; simp [o, ht]

/-- On the unit circle the search stops at once, if the tolerance is above the rounding error of the equation. -/
theorem circle_run (t : Rnd F) (ht : F.rd t.val = t.val)
    (htol : gam u (L + 15) * (4 * |t.val|) ≤ (defaultTol : Rnd F).val) :
    let r : V3 (Rnd F) := ⟨⟨1⟩, ⟨0⟩, ⟨0⟩⟩
    let v : V3 (Rnd F) := ⟨⟨0⟩, ⟨1⟩, ⟨0⟩⟩
    ∃ chi chip, chi.val = t.val ∧
      uniRun t (alphaR r v (⟨1⟩ : Rnd F)) (V3.norm r) (sigma_fn r v (⟨1⟩ : Rnd F)) ⟨1⟩ defaultTol 50
        = some (0, chi, chip) := by
  intro r v
  have hL1 := hF.one_le
  have hL2 := hF.le_hundred
  obtain ⟨ha, hr, hs, hst⟩ := circle_rnd hF t ht
  obtain ⟨k, -, hrun, -, hbefore, -⟩ := C13_uni t (alphaR r v (⟨1⟩ : Rnd F)) (V3.norm r)
    (sigma_fn r v (⟨1⟩ : Rnd F)) ⟨1⟩ defaultTol 50
  rcases k with _ | k
  · exact ⟨_, _, hst, hrun⟩
  exfalso
  have h := hbefore 0 (Nat.succ_pos k)
  simp only [Function.iterate_zero, id_eq, Rnd.lt_rnd, Rnd.val_abs, decide_eq_true_eq] at h
  set chi := uniStart t (alphaR r v (⟨1⟩ : Rnd F)) ⟨1⟩ with hchi
  have hU := ubnd_elliptic hF (chi := chi) (α := 1) one_pos (a := alphaR r v (⟨1⟩ : Rnd F)) (κ := 0)
    (by rw [ha]; exact Within.refl _ _)
  have hR : Within u (5 / 2) (V3.norm r).val 1 := by
    rw [hr]; exact (Within.refl _ _).mono hF (by norm_num)
  have hS : Near u 5 0 (sigma_fn r v (⟨1⟩ : Rnd F)).val 0 := by
    rw [hs]; exact ⟨by norm_num, by simp, by simp⟩
  have hb := ((near_kepler_uni hF hU hR zero_le_one hS t ⟨1⟩).mono hF (j := L + 15) (n := 4 * |t.val|) (by linarith)
    (by rw [hst]; simp only [Real.sqrt_one]; linarith)).bound hF (by linarith) (ku_lt hF (by linarith))
  have h0 : kepler_equ_uni chi.val 1 1 0 t.val 1 = 0 := by
    rw [hst]; simp [kepler_equ_uni, ufunc1, ufunc3]
  rw [h0, sub_zero] at hb
  exact absurd (hb.trans htol) (not_le.2 h)

end

theorem tol64 : |(defaultTol : Rnd F64).val - 1 / 1000000| ≤ 1 / 10 ^ 20 := by
  have h1 : (F64.rd ((1000000 : ℕ) : ℝ)) = 1000000 := by
    have := rdB_nat 53 1000000 (by norm_num)
    exact_mod_cast this
  have h2 : F64.rd ((1 : ℕ) : ℝ) = 1 := by simpa using stdModel_F64.lit 1 (by norm_num)
  have h3 : (defaultTol : Rnd F64).val = F64.rd (1 / 1000000) := by
    change F64.rd (F64.rd ((1 : ℕ) : ℝ) / F64.rd ((1000000 : ℕ) : ℝ)) = _
    rw [h1, h2]
  rw [h3]
  refine (stdModel_F64.rd _).trans ?_
  rw [abs_of_pos (by norm_num)]
  norm_num

/-- C68, an instance: in binary64, propagating the unit circle by any binary64 time up to 1000 (160 revolutions) gives
`(cos t, sin t, 0)` within `1.01e-6` and `(-sin t, cos t, 0)` within `1.11e-6`, the tolerance of the root search being `1e-6`. -/
theorem C68_circle_f64 (t : Rnd F64) (ht : F64.rd t.val = t.val) (h : |t.val| ≤ 1000) :
    ∃ R V, kepler [t] (⟨⟨1⟩, ⟨0⟩, ⟨0⟩⟩ : V3 (Rnd F64)) ⟨⟨0⟩, ⟨1⟩, ⟨0⟩⟩ ⟨1⟩ = some ([R], [V]) ∧
      |R.x.val - Real.cos t.val| ≤ 1.01e-6 ∧ |R.y.val - Real.sin t.val| ≤ 1.01e-6 ∧ |R.z.val| ≤ 1.01e-6 ∧
      |V.x.val + Real.sin t.val| ≤ 1.11e-6 ∧ |V.y.val - Real.cos t.val| ≤ 1.11e-6 ∧ |V.z.val| ≤ 1.11e-6 := by
  have hF := stdModel_F64
  obtain ⟨t1, t2⟩ := abs_le.1 tol64
  have hg16 : gam (2 ^ (-53 : ℤ)) (1 + 15) ≤ 2e-15 := by norm_num [gam]
  obtain ⟨chi, chip, hchi, hrun⟩ := circle_run hF t ht (by
    have := abs_nonneg t.val
    calc gam (2 ^ (-53 : ℤ)) (1 + 15) * (4 * |t.val|) ≤ 2e-15 * (4 * 1000) := by gcongr
      _ ≤ _ := by linarith)
  have hn : V3.norm (V3.re (⟨⟨1⟩, ⟨0⟩, ⟨0⟩⟩ : V3 (Rnd F64))) = 1 := by simp [V3.re, V3.norm, V3.dot]
  have hnv : V3.norm (V3.re (⟨⟨0⟩, ⟨1⟩, ⟨0⟩⟩ : V3 (Rnd F64))) = 1 := by simp [V3.re, V3.norm, V3.dot]
  have hα : alphaOf (V3.re (⟨⟨1⟩, ⟨0⟩, ⟨0⟩⟩ : V3 (Rnd F64))) (V3.re (⟨⟨0⟩, ⟨1⟩, ⟨0⟩⟩ : V3 (Rnd F64)))
      (⟨1⟩ : Rnd F64).val = 1 := by
    rw [alphaOf, hn, hnv]; norm_num [semimajor_axis]
  have hq : radius_periapsis (semiparameter (V3.norm (angular_momentum (V3.re (⟨⟨1⟩, ⟨0⟩, ⟨0⟩⟩ : V3 (Rnd F64)))
      (V3.re (⟨⟨0⟩, ⟨1⟩, ⟨0⟩⟩ : V3 (Rnd F64))))) (⟨1⟩ : Rnd F64).val) (V3.norm (eccentricity_vector
      (V3.re (⟨⟨1⟩, ⟨0⟩, ⟨0⟩⟩ : V3 (Rnd F64))) (V3.re (⟨⟨0⟩, ⟨1⟩, ⟨0⟩⟩ : V3 (Rnd F64))) (⟨1⟩ : Rnd F64).val)) = 1 := by
    norm_num [V3.re, V3.norm, V3.dot, V3.cross, angular_momentum, eccentricity_vector, semiparameter, radius_periapsis]
  obtain ⟨R, V, hk, ⟨px, py, pz⟩, hV⟩ := C68_kepler_elliptic hF (c := 3) one_pos
    (by simp [V3.re, angular_momentum, cross]) (by rw [hα]; exact one_pos) (by rw [hα, hn, hnv]; norm_num)
    (by norm_num) hrun (by norm_num) (X := 1000) (by rw [hchi]; exact h)
  obtain ⟨vx, vy, vz⟩ := hV 3005 (by rw [hα, hn, hnv, hq]; norm_num) (by norm_num)
  have he : exactProp (V3.re (⟨⟨1⟩, ⟨0⟩, ⟨0⟩⟩ : V3 (Rnd F64))) (V3.re (⟨⟨0⟩, ⟨1⟩, ⟨0⟩⟩ : V3 (Rnd F64)))
      (⟨1⟩ : Rnd F64).val t.val = (⟨Real.cos t.val, Real.sin t.val, 0⟩, ⟨-Real.sin t.val, Real.cos t.val, 0⟩) :=
    circle_exact t.val
  rw [he, hα, hq, hn, hnv] at px py pz vx vy vz
  simp only [V3.re, Real.sqrt_one, abs_one, abs_zero] at px py pz vx vy vz
  have ht' : Real.sqrt 1 * |t.val| ≤ 1000 := by rw [Real.sqrt_one, one_mul]; exact h
  have b1 : gam (2 ^ (-53 : ℤ)) (32 * 3 + 1 + 10 + 9) ≤ 2e-14 := by norm_num [gam]
  have b2 : gam (2 ^ (-53 : ℤ)) (32 * 3 + 1 + 10 + 11) ≤ 2e-14 := by norm_num [gam]
  have b3 : gam (2 ^ (-53 : ℤ)) (32 * 3 + 1 + 10 + 2 * 3005 * (32 * 3 + 1 + 10 + 8) + 9) ≤ 1e-10 := by norm_num [gam]
  have g1 : 0 ≤ gam (2 ^ (-53 : ℤ)) (32 * 3 + 1 + 10 + 9) := by norm_num [gam]
  have e1 : gam (2 ^ (-53 : ℤ)) (32 * 3 + 1 + 10 + 9) * (1 * |t.val|) ≤ 2e-14 * 1000 := by
    rw [one_mul]; gcongr
  refine ⟨R, V, hk, ?_, ?_, ?_, ?_, ?_, ?_⟩
  · refine px.trans ?_
    norm_num at e1 b1 b2 ⊢
    nlinarith
  · refine py.trans ?_
    norm_num at e1 b1 b2 ⊢
    nlinarith
  · rw [sub_zero] at pz
    refine pz.trans ?_
    norm_num at e1 b1 b2 ⊢
    nlinarith
  · rw [sub_neg_eq_add] at vx
    refine vx.trans ?_
    norm_num at e1 b1 b3 ⊢
    nlinarith
  · refine vy.trans ?_
    norm_num at e1 b1 b3 ⊢
    nlinarith
  · rw [sub_zero] at vz
    refine vz.trans ?_
    norm_num at e1 b1 b3 ⊢
    nlinarith

end Adx
