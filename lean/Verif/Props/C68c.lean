import Verif.Props.C68b
import Verif.Props.C63b
import Verif.Lemmas.Speed

/-! # C68: accuracy of `kepler`, exact and rounded

In exact arithmetic the returned state is on the exact orbit, at a time off by at most `tol/√mu`; so the error is at most
`tol` times the largest speed over `√mu`. In rounded arithmetic the residual that the loop tests, the universal functions
and the final linear combinations carry rounding errors as well. -/

namespace Adx
open Spec V3

/-- C68, exact arithmetic: if the loop of the row stops on its test, the position is within `tol √(2/q - 1/a)` and the
velocity within `tol √mu/q²` of the exact motion, `q` being the periapsis radius. -/
theorem C68_kepler_exact {r v : V3 ℝ} {mu t : ℝ} (hmu : 0 < mu) (hh : angular_momentum r v ≠ ⟨0, 0, 0⟩) {k : ℕ}
    {χ χp : ℝ} (hrun : uniRun t (1 / semimajor_axis (V3.norm r) (V3.norm v) mu) (V3.norm r) (sigma_fn r v mu) mu
      defaultTol 50 = some (k, χ, χp)) (hk : k < 50) :
    let q := radius_periapsis (semiparameter (V3.norm (angular_momentum r v)) mu)
      (V3.norm (eccentricity_vector r v mu))
    let α := 1 / semimajor_axis (V3.norm r) (V3.norm v) mu
    ∃ R V, kepler [t] r v mu = some ([R], [V]) ∧
      V3.norm (R - (exactProp r v mu t).1) ≤ Real.sqrt (2 / q - α) * (1 / 1000000) ∧
      V3.norm (V - (exactProp r v mu t).2) ≤ Real.sqrt mu / q ^ 2 * (1 / 1000000) := by
  intro q α
  obtain ⟨k', -, hr, hs, -, hstop⟩ := C13_uni t (1 / semimajor_axis (V3.norm r) (V3.norm v) mu) (V3.norm r)
    (sigma_fn r v mu) mu defaultTol 50
  rw [hr] at hrun
  simp only [Option.some.injEq, Prod.mk.injEq] at hrun
  obtain ⟨rfl, rfl, rfl⟩ := hrun
  have hst := hstop hk
  simp only [lt_real, abs_real, decide_eq_false_iff_not, not_lt] at hst
  set χ := (newtonUni t (1 / semimajor_axis (V3.norm r) (V3.norm v) mu) (V3.norm r) (sigma_fn r v mu) mu)^[k']
    (uniStart t (1 / semimajor_axis (V3.norm r) (V3.norm v) mu) mu)
  have hχ : chiOf t (alphaOf r v mu) (V3.norm r) (sigma_fn r v mu) mu = χ := by
    have := solve_eq_chiOf t (alphaOf r v mu) (V3.norm r) (sigma_fn r v mu) mu
    rw [alphaOf, hs] at this
    exact (Option.some.inj this).symm
  have hk2 := kepler_eq_map [t] r v mu
  simp only [List.map_cons, List.map_nil, keplerRow_real, hχ] at hk2
  have htol : (defaultTol : ℝ) = 1 / 1000000 := by simp [defaultTol]
  rw [htol] at hst
  obtain ⟨h1, h2⟩ := stepOf_near_exact hmu hh χ t
  have hq := qOf_pos hmu hh
  refine ⟨_, _, hk2, h1.trans ?_, h2.trans ?_⟩
  · exact mul_le_mul_of_nonneg_left hst (Real.sqrt_nonneg _)
  · exact mul_le_mul_of_nonneg_left hst (by positivity)

section
variable {F : Fp} {u L : ℝ} (hF : StdModel F u L)
include hF

theorem gam_nonneg {k : ℝ} (h0 : 0 ≤ k) (h1 : k * u < 1) : 0 ≤ gam u k := by
  have := hF.u_pos
  unfold gam; exact div_nonneg (by positivity) (by linarith)

/-- The magnitude used for `sigma0`. -/
noncomputable def sMag (r v : V3 ℝ) (mu : ℝ) : ℝ := V3.norm r * V3.norm v / Real.sqrt mu

/-- What `kepler` computes before the root search. -/
noncomputable def alphaR (r v : V3 (Rnd F)) (mu : Rnd F) : Rnd F :=
  ((1 : ℕ) : Rnd F) / semimajor_axis (V3.norm r) (V3.norm v) mu

omit hF in
/-- Componentwise error bound: `|A - B| ≤ e + c |r| + d |v|` in each component. -/
def CompErr (A : V3 (Rnd F)) (B r v : V3 ℝ) (e c d : ℝ) : Prop :=
  |A.x.val - B.x| ≤ e + (c * |r.x| + d * |v.x|) ∧ |A.y.val - B.y| ≤ e + (c * |r.y| + d * |v.y|) ∧
    |A.z.val - B.z| ≤ e + (c * |r.z| + d * |v.z|)

/-- One row of `kepler` in rounded arithmetic against the exact motion. -/
theorem row_err {r v : V3 (Rnd F)} {mu t chi : Rnd F} {K m0 m1 m2 m3 : ℝ} (hmu : 0 < mu.val)
    (hh : angular_momentum r.re v.re ≠ ⟨0, 0, 0⟩)
    (hU : UBnd u K m0 m1 m2 m3 chi (alphaR r v mu) (alphaOf r.re v.re mu.val)) (hK : (K + 11) * u < 1) :
    let r0 := V3.norm r.re
    let s := sMag r.re v.re mu.val
    let q := qOf r.re v.re mu.val
    let w := Real.sqrt mu.val
    let X := exactProp r.re v.re mu.val t.val
    let Y := keplerStep chi (alphaR r v mu) (V3.norm r) (sigma_fn r v mu) r v mu
    let f := |(kepler_equ_uni chi (alphaR r v mu) (V3.norm r) (sigma_fn r v mu) t mu).val|
    let ε := f + gam u (K + 9) * (r0 * m1 + s * m2 + m3 + w * |t.val|)
    CompErr Y.1 X.1 r.re v.re (Real.sqrt (2 / q - alphaOf r.re v.re mu.val) * ε)
      (gam u (K + 11) * (1 + m2 / r0)) (gam u (K + 11) * ((r0 * m1 + s * m2) / w)) ∧
    ∀ cr, r0 * m0 + s * m1 + m2 ≤ cr * q → 5 * (cr * (K + 8) * u) ≤ 1 → (K + 2 * cr * (K + 8) + 9) * u < 1 →
      CompErr Y.2 X.2 r.re v.re (w / q ^ 2 * ε)
        (gam u (K + 2 * cr * (K + 8) + 9) * (w / q * m1 / r0)) (gam u (K + 2 * cr * (K + 8) + 9) * (1 + m2 / q)) := by
  intro r0 s q w X Y f ε
  have hK0 := hU.h0.k0
  have hr0 : 0 ≤ r0 := V3.norm_nonneg _
  have hr := within_norm hF r
  have hσ : Near u 5 s (sigma_fn r v mu).val (sigma_fn r.re v.re mu.val) :=
    (near_sigma hF r v mu).mono hF le_rfl (div_le_div_of_nonneg_right (V3.adot_le _ _) (Real.sqrt_nonneg _))
  have hu0 := hF.u_pos
  have hq : 0 < q := qOf_pos hmu hh
  -- the true residual
  have hfe := (near_kepler_uni hF hU hr hr0 hσ t mu).bound hF (by linarith) (by nlinarith)
  have hf : |kepler_equ_uni chi.val (alphaOf r.re v.re mu.val) r0 (sigma_fn r.re v.re mu.val) t.val mu.val| ≤ ε := by
    have : ∀ a b : ℝ, |b| ≤ |a| + |a - b| := fun a b => by
      calc |b| = |a - (a - b)| := by ring_nf
        _ ≤ _ := abs_sub _ _
    exact (this _ _).trans (add_le_add le_rfl hfe)
  obtain ⟨h1, h2⟩ := stepOf_near_exact hmu hh chi.val t.val
  have h1' := h1.trans (mul_le_mul_of_nonneg_left hf (Real.sqrt_nonneg _))
  have h2' := h2.trans (mul_le_mul_of_nonneg_left hf (by positivity))
  have tri : ∀ a b c x y : ℝ, |a - b| ≤ x → |b - c| ≤ y → |a - c| ≤ y + x := fun a b c x y ha hb => by
    calc |a - c| = |(a - b) + (b - c)| := by ring_nf
      _ ≤ |a - b| + |b - c| := abs_add_le _ _
      _ ≤ _ := by linarith
  have key' : ∀ z g c d a b : ℝ, z ≤ g * (c * a + d * b) → z ≤ g * c * a + g * d * b := fun z g c d a b h =>
    h.trans_eq (by ring)
  constructor
  · have key := fun x y => (near_step_pos hF hU hr hr0 hσ mu x y).bound hF (by linarith) hK
    refine ⟨?_, ?_, ?_⟩
    · exact tri _ _ _ _ _ (key' _ _ _ _ _ _ <| key r.x v.x) ((V3.abs_x_le _).trans h1')
    · exact tri _ _ _ _ _ (key' _ _ _ _ _ _ <| key r.y v.y) ((V3.abs_y_le _).trans h1')
    · exact tri _ _ _ _ _ (key' _ _ _ _ _ _ <| key r.z v.z) ((V3.abs_z_le _).trans h1')
  · intro cr hcr hcu hKu
    set ρ := radOf r.re v.re mu.val chi.val with hρd
    have hqρ : q ≤ ρ := qOf_le_radOf hmu hh chi.val
    have hρ : 0 < ρ := by linarith
    have hd := near_dchi hF hU hr hr0 hσ
    have hcr0 : 0 ≤ cr := by
      have := hd.m_nonneg.trans hcr
      exact nonneg_of_mul_nonneg_left this hq
    rw [dchi_eq] at hd
    have hR := hd.within hF (by linarith) hρ.ne' (c := cr) (by
      rw [abs_of_pos hρ]
      exact hcr.trans (mul_le_mul_of_nonneg_left hqρ hcr0)) (by linarith)
    have hkr : 0 ≤ 2 * cr * (K + 8) := by positivity
    have key := fun x y => ((near_step_vel hF hU hr hr0 hR hρ.le mu x y).mono hF le_rfl
      (n := w / q * m1 / r0 * |x.val| + (1 + m2 / q) * |y.val|) (by
        have := hU.h1.m_nonneg
        have := hU.h2.m_nonneg
        have : 0 ≤ w := Real.sqrt_nonneg _
        gcongr)).bound hF (by linarith) hKu
    have eR : equ_of_orb_uvi (ufunc0 chi.val (alphaOf r.re v.re mu.val)) (ufunc1 chi.val (alphaOf r.re v.re mu.val))
        (ufunc2 chi.val (alphaOf r.re v.re mu.val)) r0 (sigma_fn r.re v.re mu.val) = ρ :=
      dchi_eq chi.val (alphaOf r.re v.re mu.val) r0 (sigma_fn r.re v.re mu.val)
    rw [hρd] at eR
    simp only [← eR] at key
    refine ⟨?_, ?_, ?_⟩
    · exact tri _ _ _ _ _ (key' _ _ _ _ _ _ <| key r.x v.x) ((V3.abs_x_le _).trans h2')
    · exact tri _ _ _ _ _ (key' _ _ _ _ _ _ <| key r.y v.y) ((V3.abs_y_le _).trans h2')
    · exact tri _ _ _ _ _ (key' _ _ _ _ _ _ <| key r.z v.z) ((V3.abs_z_le _).trans h2')

theorem UBnd.mono {k k' m0 m1 m2 m3 n0 n1 n2 n3 : ℝ} {chi a : Rnd F} {α : ℝ} (h : UBnd u k m0 m1 m2 m3 chi a α)
    (hk : k ≤ k') (h0 : m0 ≤ n0) (h1 : m1 ≤ n1) (h2 : m2 ≤ n2) (h3 : m3 ≤ n3) : UBnd u k' n0 n1 n2 n3 chi a α :=
  ⟨h.h0.mono hF hk h0, h.h1.mono hF hk h1, h.h2.mono hF hk h2, h.h3.mono hF hk h3⟩

omit hF in
/-- The row of `kepler` for one time, and the value at which its root search stopped. -/
theorem kepler_row_rnd {r v : V3 (Rnd F)} {mu t : Rnd F} {k : ℕ} {chi chip : Rnd F}
    (hrun : uniRun t (alphaR r v mu) (V3.norm r) (sigma_fn r v mu) mu defaultTol 50 = some (k, chi, chip))
    (hk : k < 50) :
    let Y := keplerStep chi (alphaR r v mu) (V3.norm r) (sigma_fn r v mu) r v mu
    kepler [t] r v mu = some ([Y.1], [Y.2]) ∧
    |(kepler_equ_uni chi (alphaR r v mu) (V3.norm r) (sigma_fn r v mu) t mu).val| ≤ (defaultTol : Rnd F).val := by
  intro Y
  obtain ⟨k', -, hr, hs, -, hstop⟩ := C13_uni t (alphaR r v mu) (V3.norm r) (sigma_fn r v mu) mu defaultTol 50
  rw [hr] at hrun
  simp only [Option.some.injEq, Prod.mk.injEq] at hrun
  obtain ⟨rfl, rfl, rfl⟩ := hrun
  have hst := hstop hk
  simp only [Rnd.lt_rnd, Rnd.val_abs, decide_eq_false_iff_not, not_lt] at hst
  refine ⟨?_, hst⟩
  have hχ := solve_eq_chiOf t (alphaR r v mu) (V3.norm r) (sigma_fn r v mu) mu
  rw [hs] at hχ
  have hk2 := kepler_eq_map [t] r v mu
  simp only [List.map_cons, List.map_nil] at hk2
  have e : keplerRow r v mu t = keplerStep (chiOf t (alphaR r v mu) (V3.norm r) (sigma_fn r v mu) mu) (alphaR r v mu)
    (V3.norm r) (sigma_fn r v mu) r v mu := rfl
  rw [hk2, e, ← Option.some.inj hχ]

/-- C68, rounded arithmetic, ellipses. `c` is the condition number of the reciprocal semimajor axis
(3 for a circle), `X` any bound on the returned generalized anomaly, `K = 32 c + L + 10` the number of rounding errors in
the universal functions. If the loop of the row stops on its test, the position is within

`√(2/q - 1/a) (tol + γ (r0 X + s (2 + √α X)/α + 2 X/α + √mu |t|))`

of the exact motion (the loop), plus `γ (1 + …)` times the magnitudes of the terms that are added (the last step); and the
velocity likewise, if the computed radius has relative precision (`cr`). -/
theorem C68_kepler_elliptic {r v : V3 (Rnd F)} {mu t : Rnd F} (hmu : 0 < mu.val)
    (hh : angular_momentum r.re v.re ≠ ⟨0, 0, 0⟩) (hα : 0 < alphaOf r.re v.re mu.val) {c : ℝ}
    (hc : 2 / V3.norm r.re + V3.norm v.re ^ 2 / mu.val ≤ c * alphaOf r.re v.re mu.val) (hs : 80 * c * u ≤ 1)
    {k : ℕ} {chi chip : Rnd F}
    (hrun : uniRun t (alphaR r v mu) (V3.norm r) (sigma_fn r v mu) mu defaultTol 50 = some (k, chi, chip))
    (hk : k < 50) {X : ℝ} (hX : |chi.val| ≤ X) :
    let α := alphaOf r.re v.re mu.val
    let r0 := V3.norm r.re
    let s := V3.norm r.re * V3.norm v.re / Real.sqrt mu.val
    let q := radius_periapsis (semiparameter (V3.norm (angular_momentum r.re v.re)) mu.val)
      (V3.norm (eccentricity_vector r.re v.re mu.val))
    let w := Real.sqrt mu.val
    let y := Real.sqrt α * X
    let K := 32 * c + L + 10
    let ε := (defaultTol : Rnd F).val + gam u (K + 9) * (r0 * X + s * ((2 + y) / α) + 2 * X / α + w * |t.val|)
    ∃ R V, kepler [t] r v mu = some ([R], [V]) ∧
      CompErr R (exactProp r.re v.re mu.val t.val).1 r.re v.re (Real.sqrt (2 / q - α) * ε)
        (gam u (K + 11) * (1 + (2 + y) / α / r0)) (gam u (K + 11) * ((r0 * X + s * ((2 + y) / α)) / w)) ∧
      ∀ cr, r0 * (1 + y) + s * X + (2 + y) / α ≤ cr * q → 5 * (cr * (K + 8) * u) ≤ 1 →
        CompErr V (exactProp r.re v.re mu.val t.val).2 r.re v.re (w / q ^ 2 * ε)
          (gam u (K + 2 * cr * (K + 8) + 9) * (w / q * X / r0))
          (gam u (K + 2 * cr * (K + 8) + 9) * (1 + (2 + y) / α / q)) := by
  intro α r0 s q w y K ε
  have hL1 := hF.one_le
  have hL2 := hF.le_hundred
  have hu0 := hF.u_pos
  have hu1 := hF.u_small
  have hX0 : 0 ≤ X := (abs_nonneg _).trans hX
  have hr0 : 0 ≤ r0 := V3.norm_nonneg _
  have hs0 : 0 ≤ s := div_nonneg (mul_nonneg hr0 (V3.norm_nonneg _)) (Real.sqrt_nonneg _)
  obtain ⟨hkep, hf⟩ := kepler_row_rnd hrun hk
  have hw := within_alpha hF r v mu hmu hα.ne' (c := c) (by rwa [abs_of_pos hα]) (by
    have : 0 ≤ c := by
      have h : 0 ≤ 2 / V3.norm r.re + V3.norm v.re ^ 2 / mu.val := by
        have := V3.norm_nonneg r.re
        positivity
      exact nonneg_of_mul_nonneg_left (h.trans hc) hα
    nlinarith)
  have hLu : (L + 21) * u ≤ 121 / 1000 := by nlinarith
  have hU : UBnd u K (1 + y) X ((2 + y) / α) (2 * X / α) chi (alphaR r v mu) α :=
    UBnd.mono hF (ubnd_elliptic hF hα hw) (by simp only [K]; linarith) (by simp only [y]; gcongr) hX
      (by simp only [y]; gcongr) (by gcongr)
  have hKu : K * u ≤ 511 / 1000 := by
    have : K * u = 32 / 80 * (80 * c * u) + (L + 10) * u := by simp only [K]; ring
    rw [this]; nlinarith
  have hK1 : (K + 11) * u < 1 := by nlinarith
  obtain ⟨h1, h2⟩ := row_err hF (t := t) hmu hh hU hK1
  have hg := gam_nonneg hF (k := K + 9) (by linarith [hU.h0.k0]) (by nlinarith)
  have hε : |(kepler_equ_uni chi (alphaR r v mu) (V3.norm r) (sigma_fn r v mu) t mu).val| +
      gam u (K + 9) * (r0 * X + s * ((2 + y) / α) + 2 * X / α + w * |t.val|) ≤ ε := add_le_add hf le_rfl
  have hmono : ∀ {A : V3 (Rnd F)} {B a b : V3 ℝ} {e e' c d : ℝ}, e ≤ e' → CompErr A B a b e c d →
      CompErr A B a b e' c d := fun h ⟨x, y, z⟩ =>
    ⟨x.trans (add_le_add h le_rfl), y.trans (add_le_add h le_rfl), z.trans (add_le_add h le_rfl)⟩
  have hq : 0 < q := qOf_pos hmu hh
  refine ⟨_, _, hkep, hmono (mul_le_mul_of_nonneg_left hε (Real.sqrt_nonneg _)) h1, fun cr hcr hcu => ?_⟩
  refine hmono (mul_le_mul_of_nonneg_left hε (div_nonneg (Real.sqrt_nonneg _) (by positivity)))
    (h2 cr hcr hcu ?_)
  have : (K + 2 * cr * (K + 8) + 9) * u = K * u + 2 / 5 * (5 * (cr * (K + 8) * u)) + 9 * u := by ring
  rw [this]; linarith

/-- C68: a priori bound on the returned generalized anomaly of an ellipse. -/
theorem C68_chi_bound {r v : V3 (Rnd F)} {mu t : Rnd F} (hmu : 0 < mu.val)
    (hh : angular_momentum r.re v.re ≠ ⟨0, 0, 0⟩) (hα : 0 < alphaOf r.re v.re mu.val) {c : ℝ}
    (hc : 2 / V3.norm r.re + V3.norm v.re ^ 2 / mu.val ≤ c * alphaOf r.re v.re mu.val) (hs : 80 * c * u ≤ 1)
    {k : ℕ} {chi chip : Rnd F}
    (hrun : uniRun t (alphaR r v mu) (V3.norm r) (sigma_fn r v mu) mu defaultTol 50 = some (k, chi, chip))
    (hk : k < 50) :
    let α := alphaOf r.re v.re mu.val
    let r0 := V3.norm r.re
    let s := V3.norm r.re * V3.norm v.re / Real.sqrt mu.val
    let q := radius_periapsis (semiparameter (V3.norm (angular_momentum r.re v.re)) mu.val)
      (V3.norm (eccentricity_vector r.re v.re mu.val))
    let w := Real.sqrt mu.val
    let g := gam u (32 * c + L + 19)
    g * (r0 + s / Real.sqrt α + 2 / α) ≤ q / 2 →
    |chi.val| ≤ 2 * ((defaultTol : Rnd F).val + g * (2 * s / α) + (1 + g) * (w * |t.val|)) / q := by
  intro α r0 s q w g hgq
  have hL1 := hF.one_le
  have hL2 := hF.le_hundred
  have hu0 := hF.u_pos
  have hu1 := hF.u_small
  have hr0 : 0 ≤ r0 := V3.norm_nonneg _
  have hs0 : 0 ≤ s := div_nonneg (mul_nonneg hr0 (V3.norm_nonneg _)) (Real.sqrt_nonneg _)
  obtain ⟨-, hf⟩ := kepler_row_rnd hrun hk
  have hc0 : 0 ≤ c := by
    have h : 0 ≤ 2 / V3.norm r.re + V3.norm v.re ^ 2 / mu.val := by
      have := V3.norm_nonneg r.re
      positivity
    exact nonneg_of_mul_nonneg_left (h.trans hc) hα
  have hw := within_alpha hF r v mu hmu hα.ne' (c := c) (by rwa [abs_of_pos hα]) (by nlinarith)
  have hU : UBnd u (32 * c + L + 10) _ _ _ _ chi (alphaR r v mu) α :=
    UBnd.mono hF (ubnd_elliptic hF hα hw) (by linarith) le_rfl le_rfl le_rfl le_rfl
  have hσ : Near u 5 s (sigma_fn r v mu).val (sigma_fn r.re v.re mu.val) :=
    (near_sigma hF r v mu).mono hF le_rfl (div_le_div_of_nonneg_right (V3.adot_le _ _) (Real.sqrt_nonneg _))
  have hKu : (32 * c + L + 10 + 9) * u < 1 := by
    have : (32 * c + L + 10 + 9) * u = 32 / 80 * (80 * c * u) + (L + 19) * u := by ring
    rw [this]; nlinarith
  have hfe := (near_kepler_uni hF hU (within_norm hF r) hr0 hσ t mu).bound hF (by linarith) hKu
  rw [show (32 * c + L + 10 + 9) = 32 * c + L + 19 by ring] at hfe
  have hq : 0 < q := qOf_pos hmu hh
  have hg : 0 ≤ g := gam_nonneg hF (by linarith) (by linarith)
  have hsl := abs_sub_le_of_slope hq (hasDerivAt_kepU α r0 (sigma_fn r.re v.re mu.val))
    (fun χ => qOf_le_radOf hmu hh χ) chi.val 0
  rw [kepU_zero, sub_zero, sub_zero, le_div_iff₀ hq] at hsl
  rw [kep_uni_eq] at hfe
  set x := |chi.val| with hx
  set T := w * |t.val| with hT
  have hk1 : |kepU α r0 (sigma_fn r.re v.re mu.val) chi.val| ≤ (defaultTol : Rnd F).val
      + g * (r0 * x + s * ((2 + Real.sqrt α * x) / α) + 2 * x / α + T) + T := by
    set A := kepU α r0 (sigma_fn r.re v.re mu.val) chi.val
    set B := (kepler_equ_uni chi (alphaR r v mu) (V3.norm r) (sigma_fn r v mu) t mu).val
    have e : A = B - (B - (A - w * t.val)) + w * t.val := by ring
    have hw' : |w * t.val| = T := by rw [abs_mul, abs_of_nonneg (Real.sqrt_nonneg _)]
    calc |A| = |B - (B - (A - w * t.val)) + w * t.val| := by rw [← e]
      _ ≤ |B - (B - (A - w * t.val))| + |w * t.val| := abs_add_le _ _
      _ ≤ |B| + |B - (A - w * t.val)| + |w * t.val| := by gcongr; exact abs_sub _ _
      _ ≤ _ := by rw [hw']; exact add_le_add (add_le_add hf hfe) le_rfl
  have hsα : Real.sqrt α / α = 1 / Real.sqrt α := by
    have h1 := Real.sqrt_pos.2 hα
    have h2 := Real.mul_self_sqrt hα.le
    rw [div_eq_div_iff hα.ne' h1.ne', h2, one_mul]
  have hsplit : g * (r0 * x + s * ((2 + Real.sqrt α * x) / α) + 2 * x / α + T)
      = g * (r0 + s / Real.sqrt α + 2 / α) * x + g * (2 * s / α) + g * T := by
    have : s * ((2 + Real.sqrt α * x) / α) = 2 * s / α + s * (Real.sqrt α / α) * x := by ring
    rw [this, hsα]; ring
  rw [hsplit] at hk1
  have hx0 : 0 ≤ x := abs_nonneg _
  have := mul_le_mul_of_nonneg_right hgq hx0
  rw [le_div_iff₀ hq]
  linarith

end
end Adx
