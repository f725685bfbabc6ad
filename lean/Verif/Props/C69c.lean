import Verif.Props.C69
import Verif.Lemmas.FlTransfer
import Verif.Props.C68b
import Verif.Props.C26
import Verif.Props.C13
import Mathlib.Analysis.Complex.ExponentialBounds

/-!
# C69, part 3: `kepler` on hyperbolas overflows to NaN

The root search starts at `χ = √mu |α| t`, where `√(-α) χ` is the mean anomaly. Beyond a mean anomaly of about 89 (binary32) or
710 (binary64) the hyperbolic functions overflow there and every component of the result is NaN, whatever the state.
-/

namespace Adx
open Spec Fl

variable {F : Fp} {Ω u L : ℝ}

theorem Fl.lit_zero (hF : StdModel F u L) (hΩ : 1000 ≤ Ω) : (ℓ 0 : Fl F Ω) = fin 0 := by
  have := lit_eq hF hΩ (n := 0) (by norm_num)
  simpa using this

theorem Fl.lit_one (hF : StdModel F u L) (hΩ : 1000 ≤ Ω) : (ℓ 1 : Fl F Ω) = fin 1 := by
  have := lit_eq hF hΩ (n := 1) (by norm_num)
  simpa using this

/-- A NaN coefficient makes every component NaN. -/
theorem Fl.comb_nan (s : Fl F Ω) (p v : V3 (Fl F Ω)) : s • p + (nan : Fl F Ω) • v = ⟨nan, nan, nan⟩ := by
  show (⟨s * p.x + nan * v.x, s * p.y + nan * v.y, s * p.z + nan * v.z⟩ : V3 (Fl F Ω)) = _
  simp

section
variable (hF : StdModel F u L) (hΩ : 1000 ≤ Ω) {a q w r0 σ m t b c : ℝ} {χ : Fl F Ω}
include hF hΩ

/-- The universal functions of an overflowing argument. -/
theorem ufunc_overflow (ha : a < 0) (hq : JFun.sqrt (fin (-a) : Fl F Ω) = fin q) (hq0 : 0 < q) (hw : fin q * χ = fin w)
    (hc : JFun.cosh (fin w : Fl F Ω) = pinf) :
    ufunc0 χ (fin a) = pinf ∧ ufunc2 χ (fin a) = pinf ∧
    (JFun.sinh (fin w : Fl F Ω) = pinf → ufunc1 χ (fin a) = pinf ∧ ufunc3 χ (fin a) = pinf) ∧
    (JFun.sinh (fin w : Fl F Ω) = ninf → ufunc1 χ (fin a) = ninf ∧ ufunc3 χ (fin a) = ninf) := by
  have l1 : JFun.lt (ℓ 0 : Fl F Ω) (fin a) = false := by rw [lit_zero hF hΩ]; simp [ha.le]
  have l2 : JFun.lt (fin a : Fl F Ω) (ℓ 0) = true := by rw [lit_zero hF hΩ]; simp [ha]
  refine ⟨?_, ?_, fun hs => ⟨?_, ?_⟩, fun hs => ⟨?_, ?_⟩⟩
  · simp [ufunc0, l1, l2, hq, hw, hc]
  · simp [ufunc2, l1, l2, hq, hw, hc, lit_one hF hΩ, pinf_div_pos (neg_pos.2 ha)]
  · simp [ufunc1, l1, l2, hq, hw, hs, pinf_div_pos hq0]
  · simp [ufunc3, l1, l2, hq, hw, hs, ninf_div_neg ha, pinf_div_pos hq0]
  · simp [ufunc1, l1, l2, hq, hw, hs, ninf_div_pos hq0]
  · simp [ufunc3, l1, l2, hq, hw, hs, pinf_div_neg ha, ninf_div_pos hq0]

/-- On a hyperbola a NaN anomaly gives NaN universal functions. -/
theorem ufunc_nan (ha : a < 0) :
    ufunc0 (nan : Fl F Ω) (fin a) = nan ∧ ufunc1 (nan : Fl F Ω) (fin a) = nan ∧ ufunc2 (nan : Fl F Ω) (fin a) = nan ∧
    ufunc3 (nan : Fl F Ω) (fin a) = nan := by
  have l1 : JFun.lt (ℓ 0 : Fl F Ω) (fin a) = false := by rw [lit_zero hF hΩ]; simp [ha.le]
  have l2 : JFun.lt (fin a : Fl F Ω) (ℓ 0) = true := by rw [lit_zero hF hΩ]; simp [ha]
  simp [ufunc0, ufunc1, ufunc2, ufunc3, l1, l2]

/-- A NaN anomaly gives NaN states. -/
theorem keplerStep_nan (ha : a < 0) (r σ mu : Fl F Ω) (p v : V3 (Fl F Ω)) :
    keplerStep nan (fin a) r σ p v mu = (⟨nan, nan, nan⟩, ⟨nan, nan, nan⟩) := by
  obtain ⟨h0, h1, h2, h3⟩ := ufunc_nan hF hΩ ha
  simp [keplerStep, h0, h1, h2, lagrange_F, lagrange_G, lagrange_Ft, lagrange_Gt, equ_of_orb_uvi, lagrange_prop, comb_nan]

/-- The state computed at an overflowing anomaly is NaN, unless `σ` has the sign of the anomaly. -/
theorem keplerStep_overflow (ha : a < 0) (hq : JFun.sqrt (fin (-a) : Fl F Ω) = fin q) (hq0 : 0 < q) (hw : fin q * χ = fin w)
    (hc : JFun.cosh (fin w : Fl F Ω) = pinf) (hr0 : 0 < r0) (mu : Fl F Ω) (p v : V3 (Fl F Ω))
    (hs : (JFun.sinh (fin w : Fl F Ω) = pinf ∧ σ ≤ 0) ∨ (JFun.sinh (fin w : Fl F Ω) = ninf ∧ 0 ≤ σ)) :
    keplerStep χ (fin a) (fin r0) (fin σ) p v mu = (⟨nan, nan, nan⟩, ⟨nan, nan, nan⟩) := by
  obtain ⟨h0, h2, hp, hn⟩ := ufunc_overflow hF hΩ ha hq hq0 hw hc
  rcases hs with ⟨hs, hσ⟩ | ⟨hs, hσ⟩
  · obtain ⟨h1, -⟩ := hp hs
    rcases hσ.lt_or_eq with hσ | rfl
    · simp [keplerStep, h0, h1, h2, lagrange_F, lagrange_G, lagrange_Ft, lagrange_Gt, equ_of_orb_uvi, lagrange_prop, comb_nan,
        pos_mul_pinf hr0, neg_mul_pinf hσ]
    · simp [keplerStep, h0, h1, h2, lagrange_F, lagrange_G, lagrange_Ft, lagrange_Gt, equ_of_orb_uvi, lagrange_prop, comb_nan]
  · obtain ⟨h1, -⟩ := hn hs
    rcases hσ.lt_or_eq with hσ | rfl
    · simp [keplerStep, h0, h1, h2, lagrange_F, lagrange_G, lagrange_Ft, lagrange_Gt, equ_of_orb_uvi, lagrange_prop, comb_nan,
        pos_mul_pinf hr0, pos_mul_ninf hr0, pos_mul_pinf hσ, pos_mul_ninf hσ]
    · simp [keplerStep, h0, h1, h2, lagrange_F, lagrange_G, lagrange_Ft, lagrange_Gt, equ_of_orb_uvi, lagrange_prop, comb_nan]

/-- C69, root search and step together: NaN for every sign of `σ`. -/
theorem uni_overflow (ha : a < 0) (hq : JFun.sqrt (fin (-a) : Fl F Ω) = fin q) (hq0 : 0 < q)
    (hw : fin q * uniStart (fin t) (fin a) (fin m : Fl F Ω) = fin w) (hb : JFun.sqrt (fin m : Fl F Ω) * fin t = fin b)
    (hc : JFun.cosh (fin w : Fl F Ω) = pinf) (hs : JFun.sinh (fin w : Fl F Ω) = pinf ∨ JFun.sinh (fin w : Fl F Ω) = ninf)
    (hr0 : 0 < r0) (p v : V3 (Fl F Ω)) {tol : ℝ} {n : ℕ} (hn : 0 < n) :
    ∃ χ, solve_kepler_uni (fin t) (fin a) (fin r0) (fin σ) (fin m) (fin tol : Fl F Ω) n = some χ ∧
      keplerStep χ (fin a) (fin r0) (fin σ) p v (fin m) = (⟨nan, nan, nan⟩, ⟨nan, nan, nan⟩) := by
  obtain ⟨h0, h2, hp, hn'⟩ := ufunc_overflow hF hΩ ha hq hq0 hw hc
  set χ0 := uniStart (fin t) (fin a) (fin m : Fl F Ω) with hχ
  -- the two possibilities after the first residual
  have hstart : JFun.lt (fin tol) (JFun.abs (kepler_equ_uni χ0 (fin a) (fin r0) (fin σ) (fin t) (fin m : Fl F Ω))) = false →
      solve_kepler_uni (fin t) (fin a) (fin r0) (fin σ) (fin m) (fin tol : Fl F Ω) n = some χ0 :=
    C13_test_false_returns_start _ _ _ _ _ _ _
  obtain ⟨z0, z1, z2, z3⟩ := ufunc_nan hF hΩ ha
  have hnan : ∀ k, (newtonUni (fin t) (fin a) (fin r0) (fin σ) (fin m : Fl F Ω))^[k] nan = nan := by
    intro k
    induction k with
    | zero => rfl
    | succ k ih =>
      rw [Function.iterate_succ_apply', ih]
      simp [newtonUni]
  have hgo : JFun.lt (fin tol) (JFun.abs (kepler_equ_uni χ0 (fin a) (fin r0) (fin σ) (fin t) (fin m : Fl F Ω))) = true →
      newtonUni (fin t) (fin a) (fin r0) (fin σ) (fin m : Fl F Ω) χ0 = nan →
      solve_kepler_uni (fin t) (fin a) (fin r0) (fin σ) (fin m) (fin tol : Fl F Ω) n = some nan := by
    intro h1 h2
    obtain ⟨k, hk, -, e, -, h3⟩ := C13_uni (fin t) (fin a) (fin r0) (fin σ) (fin m) (fin tol : Fl F Ω) n
    rcases k with _ | k
    · have := h3 hn
      simp only [Function.iterate_zero, id_eq] at this
      rw [← hχ, h1] at this; cases this
    · rw [e, Function.iterate_succ_apply, ← hχ, h2, hnan]
  rcases hs with hs | hs
  · obtain ⟨h1, h3⟩ := hp hs
    rcases le_or_gt σ 0 with hσ | hσ
    · refine ⟨χ0, hstart ?_, keplerStep_overflow hF hΩ ha hq hq0 hw hc hr0 _ _ _ (.inl ⟨hs, hσ⟩)⟩
      rcases hσ.lt_or_eq with hσ | rfl
      · simp [kepler_equ_uni, h1, h2, h3, hb, pos_mul_pinf hr0, neg_mul_pinf hσ]
      · simp [kepler_equ_uni, h1, h2, h3, hb]
    · refine ⟨nan, hgo ?_ ?_, keplerStep_nan hF hΩ ha _ _ _ _ _⟩
      · simp [kepler_equ_uni, h1, h2, h3, hb, pos_mul_pinf hr0, pos_mul_pinf hσ]
      · simp [newtonUni, kepler_equ_uni, dchi, equ_of_orb_uvi, h0, h1, h2, h3, hb, pos_mul_pinf hr0, pos_mul_pinf hσ]
  · obtain ⟨h1, h3⟩ := hn' hs
    rcases le_or_gt 0 σ with hσ | hσ
    · refine ⟨χ0, hstart ?_, keplerStep_overflow hF hΩ ha hq hq0 hw hc hr0 _ _ _ (.inr ⟨hs, hσ⟩)⟩
      rcases hσ.lt_or_eq with hσ | rfl
      · simp [kepler_equ_uni, h1, h2, h3, hb, pos_mul_ninf hr0, pos_mul_pinf hσ]
      · simp [kepler_equ_uni, h1, h2, h3, hb]
    · refine ⟨nan, hgo ?_ ?_, keplerStep_nan hF hΩ ha _ _ _ _ _⟩
      · simp [kepler_equ_uni, h1, h2, h3, hb, pos_mul_ninf hr0, neg_mul_pinf hσ]
      · simp [newtonUni, kepler_equ_uni, dchi, equ_of_orb_uvi, h0, h1, h2, h3, hb, pos_mul_pinf hr0, pos_mul_ninf hr0, neg_mul_pinf hσ, neg_mul_ninf hσ]


end

/-! ### The hyperbolic functions overflow -/

section
variable (hF : StdModel F u L)
include hF

theorem eta_le_small : eta u ≤ 1.002 * u := by
  have h0 := hF.u_pos
  have h1 := hF.u_small
  have h2 : (1 - u)⁻¹ - 1 ≤ 1.002 * u := by
    rw [inv_eq_one_div, sub_le_iff_le_add, div_le_iff₀ (by linarith)]
    norm_num; nlinarith
  have h3 := Real.add_one_le_exp (eta u)
  rw [exp_eta (by linarith)] at h3
  linarith

/-- Within few roundings of a number of magnitude `N`. -/
theorem within_abs_ge {k x y : ℝ} (h : Within u k x y) : (1 - 1.01 * (k * u)) * |y| ≤ |x| := by
  have hk0 := h.k_nonneg hF.u_pos hF.lt_one
  obtain ⟨θ, hθ, rfl⟩ := h
  have h1 := mul_le_mul_of_nonneg_left (eta_le_small hF) hk0
  have h2 : |θ| ≤ 1.01 * (k * u) := hθ.trans (h1.trans (by
    have := mul_nonneg hk0 hF.u_pos.le
    norm_num; nlinarith))
  rw [abs_mul, abs_of_pos (Real.exp_pos θ), mul_comm]
  refine mul_le_mul_of_nonneg_left ?_ (abs_nonneg _)
  have h3 := Real.add_one_le_exp θ
  have h4 := (abs_le.1 h2).1
  linarith

theorem within_abs_le {k x y : ℝ} (h : Within u k x y) (hk : k * u ≤ 1 / 100) : |x| ≤ 1.02 * |y| := by
  have hk0 := h.k_nonneg hF.u_pos hF.lt_one
  obtain ⟨θ, hθ, rfl⟩ := h
  have h1 := mul_le_mul_of_nonneg_left (eta_le_small hF) hk0
  have h2 : |θ| ≤ 1.01 * (1 / 100) := hθ.trans (h1.trans (by
    have := mul_nonneg hk0 hF.u_pos.le
    norm_num; nlinarith))
  rw [abs_mul, abs_of_pos (Real.exp_pos θ), mul_comm]
  refine mul_le_mul_of_nonneg_right ?_ (abs_nonneg _)
  have h3 := Real.add_one_le_exp (-θ)
  have h4 := (abs_le.1 h2).2
  rw [Real.exp_neg] at h3
  have h5 : Real.exp θ ≤ (1 - θ)⁻¹ := by
    rw [le_inv_comm₀ (Real.exp_pos _) (by norm_num at h4; linarith)]; linarith
  refine h5.trans ?_
  rw [inv_le_comm₀ (by norm_num at h4; linarith) (by norm_num)]
  norm_num at h4 ⊢; linarith

theorem cosh_overflow {w : ℝ} (hΩ : 0 ≤ Ω) (hw : 2.5 * Ω ≤ Real.exp |w|) : JFun.cosh (fin w : Fl F Ω) = pinf := by
  obtain ⟨θ, hθ, e⟩ := hF.cosh w
  have h1 : Real.exp |w| / 2 < Real.cosh w := by
    rw [← Real.cosh_abs, Real.cosh_eq]
    have := Real.exp_pos (-|w|); linarith
  have hLu : L * eta u ≤ 0.1002 := by
    have h1 := eta_le_small hF
    have h2 := hF.le_hundred
    have h3 := hF.u_small
    have h4 := hF.u_pos
    have h5 := hF.eta0
    calc L * eta u ≤ 100 * (1.002 * (1 / 1000)) := by
          refine mul_le_mul h2 (h1.trans ?_) h5.le (by norm_num)
          norm_num; linarith
      _ = _ := by norm_num
  have h2 : 0.89 ≤ Real.exp θ := by
    have h3 := Real.add_one_le_exp θ
    have h4 := (abs_le.1 (hθ.trans hLu)).1
    norm_num at h4 ⊢; linarith
  have h3 : Ω < F.cosh w := by
    rw [e]
    have := Real.exp_pos |w|
    calc Ω < Real.cosh w * 0.89 := by norm_num at hw ⊢; linarith
      _ ≤ _ := mul_le_mul_of_nonneg_left h2 (Real.cosh_pos _).le
  refine ext ?_
  show clip Ω (F.cosh w) = _
  rw [clip_gt (by rw [abs_of_pos (by linarith)]; exact h3), XR.infOf_pos (by linarith)]
  rfl

theorem sinh_overflow {w : ℝ} (hΩ : 1000 ≤ Ω) (hw : 2.5 * Ω ≤ Real.exp |w|) :
    (0 < w → JFun.sinh (fin w : Fl F Ω) = pinf) ∧ (w < 0 → JFun.sinh (fin w : Fl F Ω) = ninf) := by
  obtain ⟨θ, hθ, e⟩ := hF.sinh w
  have h1 : (Real.exp |w| - 1) / 2 ≤ |Real.sinh w| := by
    rw [Real.abs_sinh, Real.sinh_eq]
    have : Real.exp (-|w|) ≤ 1 := Real.exp_le_one_iff.2 (by have := abs_nonneg w; linarith)
    linarith
  have hLu : L * eta u ≤ 0.1002 := by
    have h1 := eta_le_small hF
    have h2 := hF.le_hundred
    have h3 := hF.u_small
    have h4 := hF.u_pos
    have h5 := hF.eta0
    calc L * eta u ≤ 100 * (1.002 * (1 / 1000)) := by
          refine mul_le_mul h2 (h1.trans ?_) h5.le (by norm_num)
          norm_num; linarith
      _ = _ := by norm_num
  have h2 : 0.89 ≤ Real.exp θ := by
    have h3 := Real.add_one_le_exp θ
    have h4 := (abs_le.1 (hθ.trans hLu)).1
    norm_num at h4 ⊢; linarith
  have h3 : Ω < |F.sinh w| := by
    rw [e, abs_mul, abs_of_pos (Real.exp_pos θ)]
    calc Ω < |Real.sinh w| * 0.89 := by norm_num at hw ⊢; linarith
      _ ≤ _ := mul_le_mul_of_nonneg_left h2 (abs_nonneg _)
  constructor <;> intro h0 <;> refine ext ?_ <;> show clip Ω (F.sinh w) = _ <;> rw [clip_gt h3]
  · rw [XR.infOf_pos]
    · rfl
    · rw [e]; exact mul_pos (Real.sinh_pos_iff.2 h0) (Real.exp_pos _)
  · rw [XR.infOf_neg]
    · rfl
    · rw [e]; exact mul_neg_of_neg_of_pos (Real.sinh_neg_iff.2 h0) (Real.exp_pos _)

/-- The computed `2/r - v²/mu`; `c` is its condition number. -/
theorem within_energy (r v : V3 (Rnd F)) (mu : Rnd F) {c : ℝ} (hmu : 0 < mu.val)
    (h0 : 2 / V3.norm r.re - V3.norm v.re ^ 2 / mu.val ≠ 0)
    (hc : 2 / V3.norm r.re + V3.norm v.re ^ 2 / mu.val ≤ c * |2 / V3.norm r.re - V3.norm v.re ^ 2 / mu.val|)
    (hs : 40 * c * u ≤ 1) :
    Within u (16 * c) (((2 : ℕ) : Rnd F) / V3.norm r - V3.norm v ^ 2 / mu).val (2 / V3.norm r.re - V3.norm v.re ^ 2 / mu.val) := by
  have hr := within_norm hF r
  have hv := within_norm hF v
  have h1 := (((Within.lit hF 2 (by norm_num)).div hF hr).near hF).sub hF ((((hv.sq hF).div hF (.ex mu))).near hF)
  rw [abs_div, abs_div, Nat.cast_two, abs_two, abs_of_nonneg (V3.norm_nonneg _),
    abs_of_nonneg (sq_nonneg _), abs_of_pos hmu] at h1
  exact ((h1.mono hF (j := 8) (by norm_num) hc).within hF (by norm_num) h0 le_rfl (by linarith)).mono hF (by linarith)

/-- C69, `kepler` on hyperbolas: once the mean anomaly `N = √(mu |α|³) |t|` is so large that `exp(0.98 N)` exceeds the largest
number two and a half times, every component of the result is NaN. `c` is the condition number of the energy. -/
theorem C69_kepler_nan (h1 : 3e38 ≤ Ω) {p v : V3 ℝ} {mu t c : ℝ}
    (px : |p.x| ≤ 1e8) (py : |p.y| ≤ 1e8) (pz : |p.z| ≤ 1e8) (vx : |v.x| ≤ 1e8) (vy : |v.y| ≤ 1e8) (vz : |v.z| ≤ 1e8)
    (hp : 1e-8 ≤ V3.norm p) (hmu : 1e-8 ≤ mu) (hmu' : mu ≤ 1e8) (ht : |t| ≤ 1e9)
    (hα : 2 / V3.norm p - V3.norm v ^ 2 / mu < 0)
    (hc : 2 / V3.norm p + V3.norm v ^ 2 / mu ≤ c * |2 / V3.norm p - V3.norm v ^ 2 / mu|)
    (hcu : 4000 * c * u ≤ 1) (hc6 : c ≤ 1e6)
    (hN : 2.5 * Ω ≤ Real.exp (0.98 * (Real.sqrt (-(2 / V3.norm p - V3.norm v ^ 2 / mu)) ^ 3 * Real.sqrt mu * |t|)))
    (hN' : Real.sqrt (-(2 / V3.norm p - V3.norm v ^ 2 / mu)) ^ 3 * Real.sqrt mu * |t| ≤ 1e37) :
    kepler [fin t] (finVec p) (finVec v) (fin mu : Fl F Ω) = some ([⟨nan, nan, nan⟩], [⟨nan, nan, nan⟩]) := by
  have u0 := hF.u_pos
  have us := hF.u_small
  have hΩ3 : 1000 ≤ Ω := by norm_num at h1; linarith
  have hmu0 : 0 < mu := lt_of_lt_of_le (by norm_num) hmu
  set α := 2 / V3.norm p - V3.norm v ^ 2 / mu with hαd
  have hαn : 0 < -α := by linarith
  have hp0 : 0 < V3.norm p := lt_of_lt_of_le (by norm_num) hp
  have hc1 : 1 ≤ c := by
    by_contra hlt
    have h2 : 0 ≤ V3.norm v ^ 2 / mu := by positivity
    have h3 : 0 < 2 / V3.norm p := by positivity
    have h4 : |α| ≤ 2 / V3.norm p + V3.norm v ^ 2 / mu := by rw [abs_le]; constructor <;> rw [hαd] <;> linarith
    have h5 : 0 < |α| := abs_pos.2 hα.ne
    nlinarith
  have cu1 : c * u ≤ 1 / 4000 := by linarith
  have cu2 : u ≤ c * u := le_mul_of_one_le_left u0.le hc1
  -- the vectors
  have hpre : (rndVec F p).re = p := rfl
  have hvre : (rndVec F v).re = v := rfl
  have tp : TrV 1e8 (finVec p : V3 (Fl F Ω)) (rndVec F p) := ⟨.fin px, .fin py, .fin pz⟩
  have tv : TrV 1e8 (finVec v : V3 (Fl F Ω)) (rndVec F v) := ⟨.fin vx, .fin vy, .fin vz⟩
  have tr : Tr 2e8 (V3.norm (finVec p : V3 (Fl F Ω))) (V3.norm (rndVec F p)) :=
    (tp.norm hF (by norm_num) (by norm_num at h1 ⊢; linarith)).mono (by norm_num)
  have tw : Tr 2e8 (V3.norm (finVec v : V3 (Fl F Ω))) (V3.norm (rndVec F v)) :=
    (tv.norm hF (by norm_num) (by norm_num at h1 ⊢; linarith)).mono (by norm_num)
  have tm : Tr 1e8 (fin mu : Fl F Ω) (⟨mu⟩ : Rnd F) := .fin (by rwa [abs_of_pos hmu0])
  have tt : Tr 1e9 (fin t : Fl F Ω) (⟨t⟩ : Rnd F) := .fin ht
  have wr := within_norm hF (rndVec F p)
  rw [hpre] at wr
  have hR : 9e-9 ≤ |(V3.norm (rndVec F p)).val| := by
    have := within_abs_ge hF wr
    rw [abs_of_pos hp0] at this
    have h2 : (1 - 1.01 * (5 / 2 * u)) * V3.norm p ≥ 0.99 * V3.norm p := by
      refine mul_le_mul_of_nonneg_right ?_ hp0.le
      norm_num; linarith
    norm_num at hp h2 this ⊢; linarith
  -- energy
  have hc' : 2 / V3.norm p + V3.norm v ^ 2 / mu ≤ c * |α| := hc
  have wD := within_energy hF (rndVec F p) (rndVec F v) ⟨mu⟩ (c := c) hmu0 (by rw [hpre, hvre]; exact hα.ne)
    (by rw [hpre, hvre]; exact hc') (by linarith)
  rw [hpre, hvre] at wD
  replace wD : Within u (16 * c) (((2 : ℕ) : Rnd F) / V3.norm (rndVec F p) - V3.norm (rndVec F v) ^ 2 / (⟨mu⟩ : Rnd F)).val α := wD
  have t2r : Tr 2.3e8 (((2 : ℕ) : Fl F Ω) / V3.norm (finVec p : V3 (Fl F Ω))) (((2 : ℕ) : Rnd F) / V3.norm (rndVec F p)) :=
    ((Tr.lit (n := 2) hF hΩ3 (by norm_num)).div hF tr (m := 9e-9) (by norm_num) hR (by norm_num at h1 ⊢; linarith)).mono
      (by norm_num)
  have tv2 : Tr 4.1e16 (V3.norm (finVec v : V3 (Fl F Ω)) ^ 2) (V3.norm (rndVec F v) ^ 2) :=
    (tw.mul hF tw (by norm_num at h1 ⊢; linarith)).mono (by norm_num)
  have tvm : Tr 4.2e24 (V3.norm (finVec v : V3 (Fl F Ω)) ^ 2 / fin mu) (V3.norm (rndVec F v) ^ 2 / ⟨mu⟩) :=
    (tv2.div hF tm (m := 1e-8) (by norm_num) (by show _ ≤ |mu|; rw [abs_of_pos hmu0]; exact hmu)
      (by norm_num at h1 ⊢; linarith)).mono (by norm_num)
  have tD := (t2r.sub hF tvm (by norm_num at h1 ⊢; linarith)).mono (M := 4.3e24) (by norm_num)
  set D := ((2 : ℕ) : Rnd F) / V3.norm (rndVec F p) - V3.norm (rndVec F v) ^ 2 / (⟨mu⟩ : Rnd F) with hD
  have hcu' : 16 * c * u ≤ 1 / 100 := by linarith
  have hDl : 1e-15 ≤ |D.val| := by
    have h2 := within_abs_ge hF wD
    have h3 : V3.norm p ≤ 2e8 := by
      have : V3.norm p = Real.sqrt (p.x * p.x + p.y * p.y + p.z * p.z) := rfl
      rw [this]
      refine Real.sqrt_le_iff.2 ⟨by norm_num, ?_⟩
      have sq : ∀ {s : ℝ}, |s| ≤ 1e8 → s * s ≤ 1e16 := by
        intro s hs
        have := abs_le.1 hs
        norm_num at this ⊢; nlinarith
      have a1 := sq px
      have a2 := sq py
      have a3 := sq pz
      norm_num at a1 a2 a3 ⊢; linarith
    have h4 : 1e-8 ≤ 2 / V3.norm p := by
      rw [le_div_iff₀ hp0]; norm_num at h3 ⊢; linarith
    have h5 : 0 ≤ V3.norm v ^ 2 / mu := by positivity
    have h6 : 1e-14 ≤ |α| := by
      have h7 : c * |α| ≤ 1e6 * |α| := mul_le_mul_of_nonneg_right hc6 (abs_nonneg _)
      norm_num at h4 h7 ⊢; linarith
    have h7 : 0.9 * |α| ≤ (1 - 1.01 * (16 * c * u)) * |α| := by
      refine mul_le_mul_of_nonneg_right ?_ (abs_nonneg _)
      norm_num; linarith
    norm_num at h6 h7 h2 ⊢; linarith
  -- semimajor axis and its reciprocal
  have t1 := Tr.lit (n := 1) hF hΩ3 (by norm_num)
  have tA := (t1.div hF tD (m := 1e-15) (by norm_num) hDl (by norm_num at h1 ⊢; linarith)).mono (M := 1.1e15) (by norm_num)
  have hAl : 2e-25 ≤ |(((1 : ℕ) : Rnd F) / D).val| := by
    have e : (((1 : ℕ) : Rnd F) / D).val = F.rd (F.rd (1 : ℕ) / D.val) := rfl
    rw [e, hF.lit 1 (by norm_num)]
    refine le_trans ?_ (rd_abs_ge hF _)
    have hD0 : 0 < |D.val| := lt_of_lt_of_le (by norm_num) hDl
    have : 1 / 4.3e24 ≤ |((1 : ℕ) : ℝ) / D.val| := by
      rw [abs_div, Nat.abs_cast, Nat.cast_one]
      exact one_div_le_one_div_of_le hD0 tD.le
    norm_num at this ⊢; linarith
  have tα := (t1.div hF tA (m := 2e-25) (by norm_num) hAl (by norm_num at h1 ⊢; linarith)).mono (M := 5.1e24) (by norm_num)
  have wα : Within u (16 * c + 2) (((1 : ℕ) : Rnd F) / (((1 : ℕ) : Rnd F) / D)).val α := by
    have h3 := (Within.lit hF 1 (by norm_num)).div hF ((Within.lit hF 1 (by norm_num)).div hF wD)
    rw [Nat.cast_one, one_div_one_div] at h3
    exact h3.mono hF (by linarith)
  set A := ((1 : ℕ) : Rnd F) / (((1 : ℕ) : Rnd F) / D) with hA
  have hA0 : A.val < 0 := by
    have := wα.neg.pos_iff.2 hαn
    linarith
  -- start
  have tsm : Tr 1.1e4 (JFun.sqrt (fin mu : Fl F Ω)) (JFun.sqrt (⟨mu⟩ : Rnd F)) := by
    refine (tm.sqrt hF hmu0.le (by norm_num) (by norm_num at h1 ⊢; linarith)).mono ?_
    rw [show (1e8 : ℝ) = 1e4 ^ 2 by norm_num, Real.sqrt_sq (by norm_num)]; norm_num
  have hsm : 9e-5 ≤ |(JFun.sqrt (⟨mu⟩ : Rnd F)).val| := by
    show _ ≤ |F.rd (Real.sqrt mu)|
    refine le_trans ?_ (rd_abs_ge hF _)
    rw [abs_of_nonneg (Real.sqrt_nonneg _)]
    have : 1e-4 ≤ Real.sqrt mu := Real.le_sqrt_of_sq_le (by norm_num at hmu ⊢; linarith)
    norm_num at this ⊢; linarith
  have tσ : Tr 4e20 (sigma_fn (finVec p) (finVec v) (fin mu : Fl F Ω)) (sigma_fn (rndVec F p) (rndVec F v) ⟨mu⟩) :=
    ((tp.dot hF tv (by norm_num at h1 ⊢; linarith)).div hF tsm (by norm_num) hsm (by norm_num at h1 ⊢; linarith)).mono
      (by norm_num)
  have tχ := ((tsm.mul hF tα.abs (by norm_num at h1 ⊢; linarith)).mul hF tt (by norm_num at h1 ⊢; linarith))
  have tq := tα.neg.sqrt hF (by show 0 ≤ -A.val; linarith) (by norm_num) (by norm_num at h1 ⊢; linarith)
  have tb := tsm.mul hF tt (by norm_num at h1 ⊢; linarith)
  -- the mean anomaly
  have wq : Within u ((16 * c + 2) / 2 + 1) (JFun.sqrt (-A)).val (Real.sqrt (-α)) := Within.sqrt hF (a := -A) wα.neg
  have wχ : Within u (16 * c + 5) (JFun.sqrt (⟨mu⟩ : Rnd F) * JFun.abs A * ⟨t⟩).val (Real.sqrt mu * |α| * t) := by
    have hab : Within u (16 * c + 2) (JFun.abs A).val |α| := wα.abs
    exact ((((Within.ex (⟨mu⟩ : Rnd F)).sqrt hF).mul hF hab).mul hF (.ex ⟨t⟩)).mono hF (by linarith)
  have ww := wq.mul hF wχ
  set N := Real.sqrt (-α) ^ 3 * Real.sqrt mu * |t| with hNd
  have hNe : |Real.sqrt (-α) * (Real.sqrt mu * |α| * t)| = N := by
    rw [hNd, abs_mul, abs_mul, abs_mul, abs_abs, abs_of_nonneg (Real.sqrt_nonneg _), abs_of_nonneg (Real.sqrt_nonneg _),
      abs_of_neg hα]
    nth_rw 2 [← Real.sq_sqrt hαn.le]
    ring
  have hk : ((16 * c + 2) / 2 + 1 + (16 * c + 5) + 1) * u ≤ 1 / 100 := by
    rw [show ((16 * c + 2) / 2 + 1 + (16 * c + 5) + 1) * u = 24 * (c * u) + 8 * u by ring]; linarith
  have wlo := within_abs_ge hF ww
  have whi := within_abs_le hF ww hk
  rw [hNe] at wlo whi
  have hN0 : 0 < N := by
    by_contra h
    have h3 := hN.trans (Real.exp_le_one_iff.2 (by norm_num; linarith))
    norm_num at h3; linarith
  set W := JFun.sqrt (-A) * (JFun.sqrt (⟨mu⟩ : Rnd F) * JFun.abs A * ⟨t⟩) with hW
  have hWl : 0.98 * N ≤ |W.val| := by
    refine le_trans (mul_le_mul_of_nonneg_right ?_ hN0.le) wlo
    norm_num; linarith
  have hWΩ : |W.val| ≤ Ω := by norm_num at whi hN' h1; linarith
  have hexp : 2.5 * Ω ≤ Real.exp |W.val| := hN.trans (Real.exp_le_exp.2 hWl)
  have hcosh := cosh_overflow hF (by linarith) hexp (Ω := Ω)
  have hsinh := sinh_overflow hF hΩ3 hexp (Ω := Ω)
  have hW0 : W.val ≠ 0 := by
    intro h; rw [h, abs_zero] at hWl; norm_num at hWl; linarith
  -- conclusion
  have eα : (((1 : ℕ) : Fl F Ω) / semimajor_axis (V3.norm (finVec p : V3 (Fl F Ω))) (V3.norm (finVec v : V3 (Fl F Ω))) (fin mu)) = fin A.val := tα.eq
  have es : uniStart (fin t) (fin A.val) (fin mu : Fl F Ω) = fin (JFun.sqrt (⟨mu⟩ : Rnd F) * JFun.abs A * ⟨t⟩).val := by
    have := tχ.eq
    rw [tα.eq] at this
    exact this
  have eq' : JFun.sqrt (fin (-A.val) : Fl F Ω) = fin (JFun.sqrt (-A)).val := by
    have := tq.eq
    rw [tα.eq] at this
    exact this
  have hq0 : 0 < (JFun.sqrt (-A)).val := wq.pos_iff.2 (Real.sqrt_pos.2 hαn)
  obtain ⟨χ, hχ, hstep⟩ := uni_overflow hF hΩ3 (r0 := (V3.norm (rndVec F p)).val)
    (σ := (sigma_fn (rndVec F p) (rndVec F v) ⟨mu⟩).val) hA0 eq' hq0 (w := W.val)
    (by rw [es]; exact mul_fin hWΩ) tb.eq hcosh
    (by rcases lt_or_gt_of_ne hW0 with h | h
        · exact .inr (hsinh.2 h)
        · exact .inl (hsinh.1 h))
    (wr.pos_iff.2 hp0) (finVec p) (finVec v) (tol := (defaultTol : Rnd F).val) (n := 50) (by norm_num)
  rw [kepler_eq_map]
  have hrow : keplerRow (finVec p) (finVec v) (fin mu : Fl F Ω) (fin t) = (⟨nan, nan, nan⟩, ⟨nan, nan, nan⟩) := by
    have hs := solve_eq_chiOf (fin t : Fl F Ω) (fin A.val) (fin (V3.norm (rndVec F p)).val)
      (fin (sigma_fn (rndVec F p) (rndVec F v) ⟨mu⟩).val) (fin mu)
    rw [tol_fin hF (by norm_num at h1; linarith), hχ] at hs
    simp only [keplerRow, item_fl]
    rw [eα]
    simp only [tr.eq, tσ.eq]
    rw [← Option.some.inj hs, hstep]
  simp [hrow]

end

/-- C69 in binary32: NaN from a mean anomaly of 93 on. -/
theorem C69_kepler_bin32 {p v : V3 ℝ} {mu t : ℝ}
    (px : |p.x| ≤ 1e8) (py : |p.y| ≤ 1e8) (pz : |p.z| ≤ 1e8) (vx : |v.x| ≤ 1e8) (vy : |v.y| ≤ 1e8) (vz : |v.z| ≤ 1e8)
    (hp : 1e-8 ≤ V3.norm p) (hmu : 1e-8 ≤ mu) (hmu' : mu ≤ 1e8) (ht : |t| ≤ 1e9)
    (hα : 2 / V3.norm p - V3.norm v ^ 2 / mu < 0)
    (hc : 2 / V3.norm p + V3.norm v ^ 2 / mu ≤ 4000 * |2 / V3.norm p - V3.norm v ^ 2 / mu|)
    (hN : 93 ≤ Real.sqrt (-(2 / V3.norm p - V3.norm v ^ 2 / mu)) ^ 3 * Real.sqrt mu * |t|)
    (hN' : Real.sqrt (-(2 / V3.norm p - V3.norm v ^ 2 / mu)) ^ 3 * Real.sqrt mu * |t| ≤ 1e37) :
    kepler [fin t] (finVec p) (finVec v) (fin mu : Bin32) = some ([⟨nan, nan, nan⟩], [⟨nan, nan, nan⟩]) := by
  obtain ⟨o1, o2⟩ := omega32_bounds
  refine C69_kepler_nan (stdModel_FB 24 (by norm_num)) o1 px py pz vx vy vz hp hmu hmu' ht hα hc (by norm_num) (by norm_num)
    ?_ hN'
  generalize Real.sqrt (-(2 / V3.norm p - V3.norm v ^ 2 / mu)) ^ 3 * Real.sqrt mu * |t| = N at hN
  have h1 : Real.exp 1 ^ 91 ≤ Real.exp (0.98 * N) := by
    rw [← Real.exp_nat_mul]
    refine Real.exp_le_exp.2 ?_
    norm_num; linarith
  refine le_trans ?_ h1
  have h2 : (2.718 : ℝ) ^ 91 ≤ Real.exp 1 ^ 91 := by
    have := Real.exp_one_gt_d9
    refine pow_le_pow_left₀ (by norm_num) ?_ _
    norm_num at this ⊢; linarith
  refine le_trans ?_ h2
  norm_num at o2 ⊢; linarith

theorem omega64_ge : (3e38 : ℝ) ≤ omega64 := by
  have : (1 : ℝ) ≤ 2 ^ 844 := one_le_pow₀ (by norm_num)
  calc (3e38 : ℝ) ≤ (2 ^ 53 - 1) * 2 ^ 127 := by norm_num
    _ ≤ (2 ^ 53 - 1) * 2 ^ 127 * 2 ^ 844 := le_mul_of_one_le_right (by norm_num) this
    _ = omega64 := by rw [omega64, mul_assoc, ← pow_add]

/-- C69 in binary64: NaN from a mean anomaly of 730 on. -/
theorem C69_kepler_bin64 {p v : V3 ℝ} {mu t : ℝ}
    (px : |p.x| ≤ 1e8) (py : |p.y| ≤ 1e8) (pz : |p.z| ≤ 1e8) (vx : |v.x| ≤ 1e8) (vy : |v.y| ≤ 1e8) (vz : |v.z| ≤ 1e8)
    (hp : 1e-8 ≤ V3.norm p) (hmu : 1e-8 ≤ mu) (hmu' : mu ≤ 1e8) (ht : |t| ≤ 1e9)
    (hα : 2 / V3.norm p - V3.norm v ^ 2 / mu < 0)
    (hc : 2 / V3.norm p + V3.norm v ^ 2 / mu ≤ 1e6 * |2 / V3.norm p - V3.norm v ^ 2 / mu|)
    (hN : 730 ≤ Real.sqrt (-(2 / V3.norm p - V3.norm v ^ 2 / mu)) ^ 3 * Real.sqrt mu * |t|)
    (hN' : Real.sqrt (-(2 / V3.norm p - V3.norm v ^ 2 / mu)) ^ 3 * Real.sqrt mu * |t| ≤ 1e37) :
    kepler [fin t] (finVec p) (finVec v) (fin mu : Bin64) = some ([⟨nan, nan, nan⟩], [⟨nan, nan, nan⟩]) := by
  have o1 := omega64_ge
  have o2 : omega64 ≤ 2 ^ 1024 := by
    calc omega64 ≤ 2 ^ 53 * 2 ^ 971 := by
          rw [omega64]; exact mul_le_mul_of_nonneg_right (by norm_num) (pow_nonneg (by norm_num) _)
      _ = _ := by rw [← pow_add]
  refine C69_kepler_nan stdModel_F64 o1 px py pz vx vy vz hp hmu hmu' ht hα hc (by norm_num) (by norm_num) ?_ hN'
  generalize Real.sqrt (-(2 / V3.norm p - V3.norm v ^ 2 / mu)) ^ 3 * Real.sqrt mu * |t| = N at hN
  have h1 : Real.exp 1 ^ 715 ≤ Real.exp (0.98 * N) := by
    rw [← Real.exp_nat_mul]
    refine Real.exp_le_exp.2 ?_
    norm_num; linarith
  refine le_trans ?_ h1
  have he : (2.718 : ℝ) ≤ Real.exp 1 := by
    have := Real.exp_one_gt_d9
    norm_num at this ⊢; linarith
  have e16 : (2 : ℝ) ^ 23 ≤ Real.exp 1 ^ 16 :=
    le_trans (b := 2.718 ^ 16) (by norm_num) (pow_le_pow_left₀ (by norm_num) he _)
  have e11 : (2 : ℝ) ^ 15 ≤ Real.exp 1 ^ 11 :=
    le_trans (b := 2.718 ^ 11) (by norm_num) (pow_le_pow_left₀ (by norm_num) he _)
  have h2 : ((2 : ℝ) ^ 23) ^ 44 * 2 ^ 15 ≤ (Real.exp 1 ^ 16) ^ 44 * Real.exp 1 ^ 11 :=
    mul_le_mul (pow_le_pow_left₀ (by positivity) e16 _) e11 (by positivity) (by positivity)
  rw [← pow_mul, ← pow_mul, ← pow_add, ← pow_add] at h2
  refine le_trans ?_ h2
  have h3 : (2 : ℝ) ^ (23 * 44 + 15) = 8 * 2 ^ 1024 := by
    rw [show 23 * 44 + 15 = 3 + 1024 by norm_num, pow_add]; norm_num
  rw [h3]
  have h4 : (0 : ℝ) ≤ 2 ^ 1024 := pow_nonneg (by norm_num) _
  generalize (2 : ℝ) ^ 1024 = B at o2 h4 ⊢
  norm_num; linarith

/-- The hyperbola with `r = 1`, `v = 2`, `mu = 1` (`α = -2`): NaN at every time between 34 and `1e9`. -/
example (t : ℝ) (h : 34 ≤ |t|) (h' : |t| ≤ 1e9) :
    kepler [fin t] (finVec ⟨1, 0, 0⟩) (finVec ⟨0, 2, 0⟩) (fin 1 : Bin32) = some ([⟨nan, nan, nan⟩], [⟨nan, nan, nan⟩]) := by
  have n1 : V3.norm (⟨1, 0, 0⟩ : V3 ℝ) = 1 := by simp [V3.norm, V3.dot]
  have n2 : V3.norm (⟨0, 2, 0⟩ : V3 ℝ) = 2 := by
    simp only [V3.norm, V3.dot, sqrt_real]
    rw [show (0 : ℝ) * 0 + 2 * 2 + 0 * 0 = 2 ^ 2 by norm_num, Real.sqrt_sq (by norm_num)]
  have s2 : Real.sqrt 2 ^ 3 = 2 * Real.sqrt 2 := by
    rw [pow_succ, Real.sq_sqrt (by norm_num)]
  have l1 : 1.4 ≤ Real.sqrt 2 := Real.le_sqrt_of_sq_le (by norm_num)
  have l2 : Real.sqrt 2 ≤ 1.5 := Real.sqrt_le_iff.2 (by norm_num)
  apply C69_kepler_bin32
  case ht => exact h'
  case hN => rw [n1, n2]; norm_num; rw [s2]; norm_num at l1; nlinarith
  case hN' => rw [n1, n2]; norm_num; rw [s2]; norm_num at l2 h'; nlinarith
  all_goals (try simp only [n1, n2]); norm_num

end Adx
