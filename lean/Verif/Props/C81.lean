import Verif.Lemmas.Collide
import Verif.Props.C52

/-! # C81: straight-line motion

States with `r ≠ 0` and no condition on the angular momentum, in particular a body dropped from rest or launched
vertically. `exactProp` is `kepler` with the exact root of its equation (C21). -/

namespace Adx
open Spec V3 Filter Topology

theorem U_half {α : ℝ} (hα : 0 < α) :
    U 0 (Real.pi / Real.sqrt α) α = -1 ∧ U 1 (Real.pi / Real.sqrt α) α = 0 ∧ U 2 (Real.pi / Real.sqrt α) α = 2 / α := by
  have hq : 0 < Real.sqrt α := Real.sqrt_pos.2 hα
  have e : Real.sqrt α * (Real.pi / Real.sqrt α) = Real.pi := by field_simp
  have h0 : U 0 (Real.pi / Real.sqrt α) α = -1 := by
    rw [← C07_ufunc0]
    simp only [ufunc0, Nat.cast_zero, lt_real, decide_eq_true_eq, hα, if_true, sqrt_real, cos_real, e, Real.cos_pi]
  refine ⟨h0, ?_, ?_⟩
  · rw [← C07_ufunc1]
    simp [ufunc1, hα, e]
  · rw [U_of_rec 0 hα.ne', h0]; norm_num

section
variable {r v : V3 ℝ} {mu : ℝ} (hr : r ≠ ⟨0, 0, 0⟩) (hmu : 0 < mu)
include hr hmu

/-- C52 for every state with `r ≠ 0`: the starting value and the root have the sign of the time of flight. -/
theorem C52_uni_root_sign_any (hα : 1 / semimajor_axis (V3.norm r) (V3.norm v) mu ≠ 0) {t χ : ℝ}
    (hχ : kepler_equ_uni χ (1 / semimajor_axis (V3.norm r) (V3.norm v) mu) (V3.norm r) (sigma_fn r v mu) t mu = 0) :
    (0 < uniStart t (1 / semimajor_axis (V3.norm r) (V3.norm v) mu) mu ↔ 0 < χ) ∧
      (uniStart t (1 / semimajor_axis (V3.norm r) (V3.norm v) mu) mu < 0 ↔ χ < 0) := by
  have he : χ = exactChi r v mu t := exactChi_unique' hr hmu hχ
  have hm := strictMono_exactChi' (v := v) hr hmu
  have h0 := exactChi_zero' (v := v) hr hmu
  obtain ⟨h1, h2⟩ := C52_uni_sign (t := t) hmu hα
  rw [h1, h2, he]
  exact ⟨by rw [← hm.lt_iff_lt, h0], by rw [← hm.lt_iff_lt, h0]⟩

/-- C81: for every state with `r ≠ 0`, straight lines included, the universal Kepler equation has exactly one root. -/
theorem C81_root (t : ℝ) :
    ∃! χ, kepler_equ_uni χ (1 / semimajor_axis (V3.norm r) (V3.norm v) mu) (V3.norm r) (sigma_fn r v mu) t mu = 0 :=
  root_existsUnique' hr hmu t

/-- C81: the propagated state is the initial one at time 0 and follows Newton's law at every time at which it is not at the
centre. -/
theorem C81_two_body :
    exactProp r v mu 0 = (r, v) ∧
    TwoBodyOn mu {t | (exactProp r v mu t).1 ≠ ⟨0, 0, 0⟩} (fun t => (exactProp r v mu t).1)
      (fun t => (exactProp r v mu t).2) := by
  refine ⟨exactProp_zero' hr hmu, fun t ht => ?_⟩
  have h0 : V3.norm r ≠ 0 := ((norm_pos r).2 hr).ne'
  have hn := norm_exactProp' (v := v) hr hmu t
  have hR : radOf r v mu (exactChi r v mu t) ≠ 0 := by
    rw [← hn]; exact ((norm_pos _).2 ht).ne'
  have hX := hasDerivAt_exactChi' hr hmu hR
  have hF := hasDerivAt_cF hX
  have hG := hasDerivAt_cG hmu hR hX
  have hFt := hasDerivAt_cFt hmu h0 hR hX
  have hGt := hasDerivAt_cGt hmu hR hX
  have hsq : Real.sqrt ((exactProp r v mu t).1.x ^ 2 + (exactProp r v mu t).1.y ^ 2
      + (exactProp r v mu t).1.z ^ 2) = radOf r v mu (exactChi r v mu t) := by
    rw [← hn]; exact radius_eq_norm _
  refine ⟨ht, ?_, ?_⟩
  · simp only [exactProp_eq]
    exact ⟨(hF.mul_const r.x).fun_add (hG.mul_const v.x), (hF.mul_const r.y).fun_add (hG.mul_const v.y),
      (hF.mul_const r.z).fun_add (hG.mul_const v.z)⟩
  · simp only [hsq]
    simp only [exactProp_eq]
    refine ⟨((hFt.mul_const r.x).fun_add (hGt.mul_const v.x)).congr_deriv ?_,
      ((hFt.mul_const r.y).fun_add (hGt.mul_const v.y)).congr_deriv ?_,
      ((hFt.mul_const r.z).fun_add (hGt.mul_const v.z)).congr_deriv ?_⟩ <;>
      simp only [add_x, add_y, add_z, smul_x, smul_y, smul_z] <;> ring

/-- C81: up to the first collision it is the only motion from that state. -/
theorem C81_unique {s : Set ℝ} (hs : IsOpen s) (hc : IsPreconnected s) (h0s : (0 : ℝ) ∈ s)
    {q w : ℝ → V3 ℝ} (hqw : TwoBodyOn mu s q w) (hq0 : q 0 = r) (hw0 : w 0 = v) :
    ∀ t ∈ s, (q t, w t) = exactProp r v mu t := by
  have h0 : V3.norm r ≠ 0 := ((norm_pos r).2 hr).ne'
  have hsq : 0 < Real.sqrt mu := Real.sqrt_pos.2 hmu
  have hs2 : Real.sqrt mu ^ 2 = mu := Real.sq_sqrt hmu.le
  have hrad : ∀ t, Real.sqrt ((q t).x ^ 2 + (q t).y ^ 2 + (q t).z ^ 2) = V3.norm (q t) :=
    fun t => radius_eq_norm _
  simp only [TwoBodyOn, hrad] at hqw
  have hne : ∀ t ∈ s, V3.norm (q t) ≠ 0 := fun t ht => ((norm_pos _).2 (hqw t ht).1).ne'
  have hq := fun t ht => (hqw t ht).2.1
  have hw := fun t ht => (hqw t ht).2.2
  -- radius and energy
  have hρ := fun t ht => (hq t ht).norm (hne t ht)
  have hE : ∀ t ∈ s, invA (q t) (w t) mu = alphaOf r v mu := by
    intro t ht
    rw [alphaOf, inv_semimajor_axis, ← hq0, ← hw0]
    refine const_on (f := fun t => invA (q t) (w t) mu) hs hc h0s (fun t ht => ?_) ht
    have h1 := ((hρ t ht).fun_inv (hne t ht)).const_mul 2
    have h2 := ((hw t ht).dot (hw t ht)).div_const mu
    have : (fun t => invA (q t) (w t) mu) = fun t => 2 * (V3.norm (q t))⁻¹ - dot (w t) (w t) / mu := by
      funext t; simp only [invA, div_eq_mul_inv]
    rw [this]
    refine (h1.fun_sub h2).congr_deriv ?_
    have hn := hne t ht
    have hd1 : ∀ k : ℝ, dot (k • q t) (w t) = k * dot (q t) (w t) := fun k => by
      simp only [dot, smul_x, smul_y, smul_z]; ring
    rw [dot_comm (w t) _, hd1]
    field_simp; ring
  have hww : ∀ t ∈ s, dot (w t) (w t) = mu * (2 / V3.norm (q t) - alphaOf r v mu) := by
    intro t ht
    rw [← hE t ht, invA]; field_simp; ring
  -- the radial velocity
  set α := alphaOf r v mu with hα
  set r0 := V3.norm r with hr0
  set σ0 := sigma_fn r v mu with hσ0
  have hσ : ∀ t ∈ s, HasDerivAt (fun t => sigma_fn (q t) (w t) mu)
      (Real.sqrt mu * (1 / V3.norm (q t) - α)) t := by
    intro t ht
    have h1 := ((hq t ht).dot (hw t ht)).div_const (Real.sqrt mu)
    refine h1.congr_deriv ?_
    have hn := hne t ht
    have hd1 : ∀ k : ℝ, dot (q t) (k • q t) = k * dot (q t) (q t) := fun k => by
      simp only [dot, smul_x, smul_y, smul_z]; ring
    rw [hd1, hww t ht, ← norm_sq]
    rw [div_eq_iff hsq.ne']
    field_simp
    rw [hs2]; ring
  have hρ' : ∀ t ∈ s, HasDerivAt (fun t => V3.norm (q t))
      (Real.sqrt mu * sigma_fn (q t) (w t) mu / V3.norm (q t)) t := fun t ht => by
    have := hρ t ht
    rwa [sigma_rv hmu] at this
  -- the universal anomaly along the solution
  set X : ℝ → ℝ := fun t => α * Real.sqrt mu * t + sigma_fn (q t) (w t) mu - σ0 with hX
  have hXd : ∀ t ∈ s, HasDerivAt X (Real.sqrt mu / V3.norm (q t)) t := by
    intro t ht
    have h1 := (((hasDerivAt_id' t).const_mul (α * Real.sqrt mu)).fun_add (hσ t ht)).sub_const σ0
    refine h1.congr_deriv ?_
    ring
  have hX0 : X 0 = 0 := by simp only [hX, hq0, hw0, hσ0]; ring
  -- radius and radial velocity are those of the universal formulas
  have hP : ∀ t ∈ s,
      U 0 (X t) α * (V3.norm (q t) - radU α r0 σ0 (X t))
        - U 1 (X t) α * (sigma_fn (q t) (w t) mu - sigU α r0 σ0 (X t)) = 0 := by
    intro t ht
    have := const_on (f := fun t => U 0 (X t) α * (V3.norm (q t) - radU α r0 σ0 (X t))
        - U 1 (X t) α * (sigma_fn (q t) (w t) mu - sigU α r0 σ0 (X t))) hs hc h0s (fun t ht => ?_) ht
    · simp only [hX0, hq0, hw0, radU_zero, sigU_zero] at this
      rw [this]; simp [r0, σ0]
    have hn := hne t ht
    have a1 := (hasDerivAt_U0_chi (X t) α).comp t (hXd t ht)
    have a2 := (hρ' t ht).fun_sub ((hasDerivAt_radU α r0 σ0 (X t)).comp t (hXd t ht))
    have a3 := (hasDerivAt_U_chi 0 (X t) α).comp t (hXd t ht)
    have a4 := (hσ t ht).fun_sub ((hasDerivAt_sigU α r0 σ0 (X t)).comp t (hXd t ht))
    refine ((a1.fun_mul a2).fun_sub (a3.fun_mul a4)).congr_deriv ?_
    simp only [Function.comp, zero_add]
    field_simp
    ring
  have hQ : ∀ t ∈ s,
      α * U 1 (X t) α * (V3.norm (q t) - radU α r0 σ0 (X t))
        + U 0 (X t) α * (sigma_fn (q t) (w t) mu - sigU α r0 σ0 (X t)) = 0 := by
    intro t ht
    have := const_on (f := fun t => α * U 1 (X t) α * (V3.norm (q t) - radU α r0 σ0 (X t))
        + U 0 (X t) α * (sigma_fn (q t) (w t) mu - sigU α r0 σ0 (X t))) hs hc h0s (fun t ht => ?_) ht
    · simp only [hX0, hq0, hw0, radU_zero, sigU_zero] at this
      rw [this]; simp [r0, σ0]
    have hn := hne t ht
    have a1 := (hasDerivAt_U0_chi (X t) α).comp t (hXd t ht)
    have a2 := (hρ' t ht).fun_sub ((hasDerivAt_radU α r0 σ0 (X t)).comp t (hXd t ht))
    have a3 := ((hasDerivAt_U_chi 0 (X t) α).comp t (hXd t ht)).const_mul α
    have a4 := (hσ t ht).fun_sub ((hasDerivAt_sigU α r0 σ0 (X t)).comp t (hXd t ht))
    refine ((a3.fun_mul a2).fun_add (a1.fun_mul a4)).congr_deriv ?_
    simp only [Function.comp, zero_add]
    field_simp
    ring
  have hrho : ∀ t ∈ s, V3.norm (q t) = radU α r0 σ0 (X t) := by
    intro t ht
    have := U_pythagoras (X t) α
    linear_combination U 0 (X t) α * hP t ht + U 1 (X t) α * hQ t ht
      - (V3.norm (q t) - radU α r0 σ0 (X t)) * this
  -- hence the anomaly is the root
  have hroot : ∀ t ∈ s, X t = exactChi r v mu t := by
    intro t ht
    refine exactChi_unique' hr hmu (isRoot_iff.2 ?_)
    have := const_on (f := fun t => kepU α r0 σ0 (X t) - Real.sqrt mu * t) hs hc h0s (fun t ht => ?_) ht
    · simp only [hX0, kepU_zero, mul_zero, sub_zero] at this
      linarith
    refine (((hasDerivAt_kepU α r0 σ0 (X t)).comp t (hXd t ht)).fun_sub
      ((hasDerivAt_id' t).const_mul (Real.sqrt mu))).congr_deriv ?_
    rw [hrho t ht]
    have : radU α r0 σ0 (X t) ≠ 0 := by rw [← hrho t ht]; exact hne t ht
    field_simp; ring
  -- both motions satisfy the same linear equation now
  intro t ht
  have hnq : ∀ t ∈ s, V3.norm (q t) = radU α r0 σ0 (exactChi r v mu t) := fun t ht => by
    rw [hrho t ht, hroot t ht]
  have hR : ∀ t ∈ s, radU α r0 σ0 (exactChi r v mu t) ≠ 0 := fun t ht => by
    rw [← hnq t ht]; exact hne t ht
  have hXe := fun t ht => hasDerivAt_exactChi' hr hmu (hR t ht)
  have hF := fun t ht => hasDerivAt_cF (hXe t ht)
  have hG := fun t ht => hasDerivAt_cG hmu (hR t ht) (hXe t ht)
  have hFt := fun t ht => hasDerivAt_cFt hmu h0 (hR t ht) (hXe t ht)
  have hGt := fun t ht => hasDerivAt_cGt hmu (hR t ht) (hXe t ht)
  have scalar : ∀ (a b : ℝ → ℝ) (a0 b0 : ℝ), a 0 = a0 → b 0 = b0 →
      (∀ t ∈ s, HasDerivAt a (b t) t) →
      (∀ t ∈ s, HasDerivAt b (-mu / V3.norm (q t) ^ 3 * a t) t) →
      a t = cF r0 (exactChi r v mu t) α * a0 + cG α r0 σ0 mu (exactChi r v mu t) * b0 ∧
      b t = cFt α r0 σ0 mu (exactChi r v mu t) * a0 + cGt α r0 σ0 (exactChi r v mu t) * b0 := by
    intro a b a0 b0 ha0 hb0 ha hb
    have z0 : exactChi r v mu 0 = 0 := exactChi_zero' hr hmu
    have w1 := const_on (f := fun t => a t * cFt α r0 σ0 mu (exactChi r v mu t)
      - b t * cF r0 (exactChi r v mu t) α) hs hc h0s (fun t ht => by
        refine (((ha t ht).fun_mul (hFt t ht)).fun_sub ((hb t ht).fun_mul (hF t ht))).congr_deriv ?_
        rw [hnq t ht]; ring) ht
    have w2 := const_on (f := fun t => a t * cGt α r0 σ0 (exactChi r v mu t)
      - b t * cG α r0 σ0 mu (exactChi r v mu t)) hs hc h0s (fun t ht => by
        refine (((ha t ht).fun_mul (hGt t ht)).fun_sub ((hb t ht).fun_mul (hG t ht))).congr_deriv ?_
        rw [hnq t ht]; ring) ht
    have v1 : a 0 * cFt α r0 σ0 mu (exactChi r v mu 0) - b 0 * cF r0 (exactChi r v mu 0) α = -b0 := by
      rw [z0, ha0, hb0]; simp [cFt, cF, U_zero_left]
    have v2 : a 0 * cGt α r0 σ0 (exactChi r v mu 0) - b 0 * cG α r0 σ0 mu (exactChi r v mu 0) = a0 := by
      rw [z0, ha0, hb0]; simp [cGt, cG, U_zero_left]
    have hwr := lagrange_wronskian (α := α) (σ0 := σ0) h0 (hR t ht) hmu
    rw [v1] at w1
    rw [v2] at w2
    constructor
    · linear_combination (-a t) * hwr + cF r0 (exactChi r v mu t) α * w2
        - cG α r0 σ0 mu (exactChi r v mu t) * w1
    · linear_combination (-b t) * hwr + cFt α r0 σ0 mu (exactChi r v mu t) * w2
        - cGt α r0 σ0 (exactChi r v mu t) * w1
  rw [exactProp_eq]
  obtain ⟨x1, x2⟩ := scalar (fun t => (q t).x) (fun t => (w t).x) r.x v.x (by rw [hq0]) (by rw [hw0])
    (fun t ht => (hq t ht).x) (fun t ht => (hw t ht).x)
  obtain ⟨y1, y2⟩ := scalar (fun t => (q t).y) (fun t => (w t).y) r.y v.y (by rw [hq0]) (by rw [hw0])
    (fun t ht => (hq t ht).y) (fun t ht => (hw t ht).y)
  obtain ⟨z1, z2⟩ := scalar (fun t => (q t).z) (fun t => (w t).z) r.z v.z (by rw [hq0]) (by rw [hw0])
    (fun t ht => (hq t ht).z) (fun t ht => (hw t ht).z)
  refine Prod.ext ?_ ?_
  · ext
    · exact x1
    · exact y1
    · exact z1
  · ext
    · exact x2
    · exact y2
    · exact z2


/-- C81: propagating on from an intermediate state gives the same trajectory, also across a collision in between; the
velocities are compared where the body is not at the centre. -/
theorem C81_composition (t1 t2 : ℝ) (h1 : (exactProp r v mu t1).1 ≠ ⟨0, 0, 0⟩) :
    (exactProp (exactProp r v mu t1).1 (exactProp r v mu t1).2 mu t2).1 = (exactProp r v mu (t1 + t2)).1 ∧
    ((exactProp r v mu (t1 + t2)).1 ≠ ⟨0, 0, 0⟩ →
      (exactProp (exactProp r v mu t1).1 (exactProp r v mu t1).2 mu t2).2 = (exactProp r v mu (t1 + t2)).2) := by
  have hs : Real.sqrt mu ≠ 0 := (Real.sqrt_pos.2 hmu).ne'
  have h0 : V3.norm r ≠ 0 := ((norm_pos r).2 hr).ne'
  set χ1 := exactChi r v mu t1 with hχ1
  have hn1 := norm_exactProp' (v := v) hr hmu t1
  have hR1 : radOf r v mu χ1 ≠ 0 := by rw [← hn1]; exact ((norm_pos _).2 h1).ne'
  have hσ1 : sigma_fn (exactProp r v mu t1).1 (exactProp r v mu t1).2 mu = sigOf r v mu χ1 := step_sigma hr hmu hR1
  have hα1 : alphaOf (exactProp r v mu t1).1 (exactProp r v mu t1).2 mu = alphaOf r v mu := by
    rw [alphaOf, alphaOf, inv_semimajor_axis, inv_semimajor_axis]; exact step_invA hr hmu hR1
  set χ2 := exactChi (exactProp r v mu t1).1 (exactProp r v mu t1).2 mu t2 with hχ2
  have hk2 := kepU_exactChi' (v := (exactProp r v mu t1).2) h1 hmu t2
  rw [hα1, hσ1, hn1, ← hχ2] at hk2
  have hχ : exactChi r v mu (t1 + t2) = χ1 + χ2 := by
    refine (exactChi_unique' hr hmu (isRoot_iff.2 ?_)).symm
    have hk1 := kepU_exactChi' (v := v) hr hmu t1
    rw [← hχ1] at hk1
    rw [kepU_add, hk1]
    change _ + kepU _ (radOf r v mu χ1) (sigOf r v mu χ1) _ = _
    rw [hk2]; ring
  have hn12 := norm_exactProp' (v := v) hr hmu (t1 + t2)
  rw [hχ] at hn12
  have e1 := exactProp_eq (r := r) (v := v) (mu := mu) t1
  have eL := exactProp_eq (r := (exactProp r v mu t1).1) (v := (exactProp r v mu t1).2) (mu := mu) t2
  rw [hα1, hσ1, hn1, ← hχ2, ← hχ1] at eL
  have eR := exactProp_eq (r := r) (v := v) (mu := mu) (t1 + t2)
  rw [hχ] at eR
  have f1 : (exactProp r v mu t1).1 = _ := congrArg Prod.fst e1
  have f2 : (exactProp r v mu t1).2 = _ := congrArg Prod.snd e1
  rw [← hχ1] at f1 f2
  refine ⟨?_, fun h12 => ?_⟩
  · rw [eL, eR]
    simp only [f1, f2, ← cF_add h0 hmu hR1, ← cG_add hmu hR1]
    ext <;> simp only [add_x, add_y, add_z, smul_x, smul_y, smul_z] <;> ring
  · have hR12 : radOf r v mu (χ1 + χ2) ≠ 0 := by rw [← hn12]; exact ((norm_pos _).2 h12).ne'
    rw [eL, eR]
    simp only [f1, f2, ← cFt_add h0 hmu hR1 hR12, ← cGt_add hmu hR1 hR12]
    ext <;> simp only [add_x, add_y, add_z, smul_x, smul_y, smul_z] <;> ring

/-- C81 (C24 for `r ≠ 0`): bound motion repeats after the period. -/
theorem C81_periodic (ha : 0 < semimajor_axis (V3.norm r) (V3.norm v) mu) (t : ℝ) :
    exactProp r v mu (t + orb_period (semimajor_axis (V3.norm r) (V3.norm v) mu) mu)
      = exactProp r v mu t := by
  set a := semimajor_axis (V3.norm r) (V3.norm v) mu with hadef
  have hα : alphaOf r v mu = 1 / a := rfl
  have hαpos : 0 < 1 / a := by positivity
  set q := Real.sqrt (1 / a) with hq
  have hq0 : 0 < q := Real.sqrt_pos.2 hαpos
  have hq2 : q ^ 2 = 1 / a := Real.sq_sqrt hαpos.le
  set T := 2 * Real.pi / q with hT
  have harg : ∀ χ, q * (χ + T) = q * χ + 2 * Real.pi := fun χ => by rw [hT]; field_simp
  have hU0 : ∀ χ, U 0 (χ + T) (1 / a) = U 0 χ (1 / a) := fun χ => by
    rw [← C07_ufunc0, ← C07_ufunc0]
    simp only [ufunc0, Nat.cast_zero, lt_real, decide_eq_true_eq, hαpos, if_true, sqrt_real, cos_real, ← hq,
      harg, Real.cos_add_two_pi]
  have hU1 : ∀ χ, U 1 (χ + T) (1 / a) = U 1 χ (1 / a) := fun χ => by
    rw [← C07_ufunc1, ← C07_ufunc1]
    simp only [ufunc1, Nat.cast_zero, lt_real, decide_eq_true_eq, hαpos, if_true, sqrt_real, sin_real, ← hq,
      harg, Real.sin_add_two_pi]
  have hU2 : ∀ χ, U 2 (χ + T) (1 / a) = U 2 χ (1 / a) := fun χ => by
    rw [U_of_rec 0 hαpos.ne', U_of_rec 0 hαpos.ne', hU0]; simp
  have hU3 : ∀ χ, U 3 (χ + T) (1 / a) = U 3 χ (1 / a) + T * a := fun χ => by
    rw [U_of_rec 1 hαpos.ne', U_of_rec 1 hαpos.ne', hU1]; simp; field_simp; ring
  have hP : Real.sqrt mu * orb_period a mu = T * a := by
    have hpi : 0 < Real.pi := Real.pi_pos
    simp only [orb_period, Nat.cast_ofNat, pi_real, sqrt_real]
    rw [show a ^ 3 / mu = (a / q / Real.sqrt mu) ^ 2 by
      rw [div_pow, div_pow, hq2, Real.sq_sqrt hmu.le]; field_simp]
    have hs : 0 < Real.sqrt mu := Real.sqrt_pos.2 hmu
    rw [Real.sqrt_sq (by positivity), hT]
    field_simp
  have hχ : exactChi r v mu (t + orb_period a mu) = exactChi r v mu t + T := by
    refine (exactChi_unique' hr hmu (isRoot_iff.2 ?_)).symm
    have := kepU_exactChi' (v := v) hr hmu t
    rw [hα] at this ⊢
    simp only [kepU, hU1, hU2, hU3] at this ⊢
    rw [mul_add, hP, ← this]; ring
  rw [exactProp_eq, exactProp_eq, hχ, hα]
  simp only [cF, cG, cFt, cGt, radU, hU0, hU1, hU2]

/-- C81 (C20 for `r ≠ 0`): for every `chi` the new position has the norm `R = equ_of_orb_uvi ≥ 0`, and where `R ≠ 0` the four
Lagrange coefficients have determinant one. -/
theorem C20_lagrange_any (χ : ℝ) :
    let α := 1 / semimajor_axis (V3.norm r) (V3.norm v) mu
    let r0 := V3.norm r
    let σ0 := sigma_fn r v mu
    let R := equ_of_orb_uvi (ufunc0 χ α) (ufunc1 χ α) (ufunc2 χ α) r0 σ0
    let F := lagrange_F (ufunc2 χ α) r0
    let G := lagrange_G (ufunc1 χ α) (ufunc2 χ α) σ0 r0 mu
    let Ft := lagrange_Ft (ufunc1 χ α) R r0 mu
    let Gt := lagrange_Gt (ufunc2 χ α) R
    V3.norm (F • r + G • v) = R ∧ 0 ≤ R ∧ (R ≠ 0 → F * Gt - Ft * G = 1) := by
  intro α r0 σ0 R F G Ft Gt
  have h0 : 0 < V3.norm r := (norm_pos r).2 hr
  have hR : R = radOf r v mu χ := dchi_eq χ α r0 σ0
  refine ⟨by rw [hR, ← step_norm hr hmu]; rfl, by rw [hR]; exact radOf_nonneg hr hmu, fun hne => ?_⟩
  rw [hR] at hne
  rw [← lagrange_wronskian (α := α) (σ0 := σ0) (χ := χ) h0.ne' hne hmu]
  simp only [F, G, Ft, Gt, R, lagrange_F, lagrange_G, lagrange_Ft, lagrange_Gt, equ_of_orb_uvi, C07_ufunc0,
    C07_ufunc1, C07_ufunc2, sqrt_real, Nat.cast_one, cF, cG, cFt, cGt, radU, r0]

/-- C81 (C31 for `r ≠ 0`): `generalized_anomaly` recovers the root `chi` whenever the new position is not the centre. -/
theorem C31_generalized_anomaly_any {t χ : ℝ} {r' v' : V3 ℝ}
    (hχ : kepler_equ_uni χ (1 / semimajor_axis (V3.norm r) (V3.norm v) mu) (V3.norm r) (sigma_fn r v mu) t mu
      = 0) (hstep : keplerStep χ (1 / semimajor_axis (V3.norm r) (V3.norm v) mu) (V3.norm r)
        (sigma_fn r v mu) r v mu = (r', v')) (hr' : r' ≠ ⟨0, 0, 0⟩) :
    generalized_anomaly (1 / semimajor_axis (V3.norm r) (V3.norm v) mu) (sigma_fn r' v' mu)
      (sigma_fn r v mu) t mu = χ := by
  change stepOf r v mu χ = (r', v') at hstep
  have hn := step_norm (v := v) (χ := χ) hr hmu
  have h1 := step_sigma (v := v) (χ := χ) hr hmu (by rw [← hn, hstep]; exact ((norm_pos _).2 hr').ne')
  rw [hstep] at h1
  simp only at h1
  have h2 : kepU (alphaOf r v mu) (V3.norm r) (sigma_fn r v mu) χ = Real.sqrt mu * t := isRoot_iff.1 hχ
  rw [h1]
  change generalized_anomaly (alphaOf r v mu) _ _ t mu = χ
  simp only [generalized_anomaly, sqrt_real]
  unfold sigOf
  rw [sigU_eq, h2]; ring

/-- C81 (C23 for `r ≠ 0`): each state returned by `kepler` is the exact state at the requested time shifted by the residual
of the root search over `√mu`. -/
theorem C81_exact_up_to_time {ts : List ℝ} {rs vs : List (V3 ℝ)} (hk : kepler ts r v mu = some (rs, vs))
    {i : ℕ} {r' v' : V3 ℝ} (hr' : rs[i]? = some r') (hv' : vs[i]? = some v') :
    ∃ t χ t', ts[i]? = some t ∧
      solve_kepler_uni t (alphaOf r v mu) (V3.norm r) (sigma_fn r v mu) mu = some χ ∧
      t' = t + kepler_equ_uni χ (alphaOf r v mu) (V3.norm r) (sigma_fn r v mu) t mu / Real.sqrt mu ∧
      (r', v') = exactProp r v mu t' ∧
      ∀ k χp, uniRun t (alphaOf r v mu) (V3.norm r) (sigma_fn r v mu) mu defaultTol 50 = some (k, χ, χp) →
        k < 50 → |t' - t| ≤ (1 / 1000000) / Real.sqrt mu := by
  obtain ⟨t, χ, ht, hsolve, hstep⟩ := kepler_row hk hr' hv'
  have hs : 0 < Real.sqrt mu := Real.sqrt_pos.2 hmu
  set res := kepler_equ_uni χ (alphaOf r v mu) (V3.norm r) (sigma_fn r v mu) t mu with hres
  have hroot : IsRoot r v mu (t + res / Real.sqrt mu) χ := by
    rw [isRoot_iff, hres, kep_uni_eq]; field_simp; ring
  refine ⟨t, χ, _, ht, hsolve, rfl, ?_, ?_⟩
  · rw [exactProp, ← exactChi_unique' hr hmu hroot, hstep]
  · intro k χp hrun hk50
    obtain ⟨k', -, hr, -, -, hstop⟩ := C13_uni t (alphaOf r v mu) (V3.norm r) (sigma_fn r v mu) mu defaultTol 50
    rw [hr] at hrun
    simp only [Option.some.injEq, Prod.mk.injEq] at hrun
    obtain ⟨rfl, hχ, -⟩ := hrun
    have hst := hstop hk50
    rw [hχ] at hst
    simp only [lt_real, abs_real, decide_eq_false_iff_not, not_lt, defaultTol, Nat.cast_one,
      Nat.cast_ofNat] at hst
    rw [add_sub_cancel_left, abs_div, abs_of_pos hs]
    exact div_le_div_of_nonneg_right hst hs.le

theorem line_sig_mono (hα : alphaOf r v mu ≤ 0) : StrictMono (sigOf r v mu) := by
  have hd : ∀ χ, HasDerivAt (sigOf r v mu) (1 - alphaOf r v mu * radOf r v mu χ) χ := hasDerivAt_sigU _ _ _
  refine strictMono_of_deriv_pos fun χ => ?_
  rw [(hd χ).deriv]
  have : 0 ≤ radOf r v mu χ := radOf_nonneg hr hmu
  nlinarith [mul_nonneg (neg_nonneg.2 hα) this]

theorem line_sig_zero (hα : alphaOf r v mu ≤ 0) : ∃ χ, sigOf r v mu χ = 0 := by
  have hd : ∀ χ, HasDerivAt (sigOf r v mu) (1 - alphaOf r v mu * radOf r v mu χ) χ := hasDerivAt_sigU _ _ _
  have hm : Monotone (fun χ => sigOf r v mu χ - χ) := by
    refine monotone_of_deriv_nonneg (fun χ => ((hd χ).fun_sub (hasDerivAt_id' χ)).differentiableAt) fun χ => ?_
    rw [((hd χ).fun_sub (hasDerivAt_id' χ)).deriv]
    have : 0 ≤ radOf r v mu χ := radOf_nonneg hr hmu
    nlinarith [mul_nonneg (neg_nonneg.2 hα) this]
  have hc : Continuous (sigOf r v mu) := continuous_iff_continuousAt.2 fun x => (hd x).continuousAt
  have hs0 : sigOf r v mu 0 = sigma_fn r v mu := sigU_zero _ _ _
  have a1 := hm (abs_nonneg (sigma_fn r v mu))
  have a2 := hm (neg_nonpos.2 (abs_nonneg (sigma_fn r v mu)))
  simp only [hs0] at a1 a2
  exact mem_range_of_exists_le_of_exists_ge hc
    ⟨-|sigma_fn r v mu|, by linarith [le_abs_self (sigma_fn r v mu)]⟩
    ⟨|sigma_fn r v mu|, by linarith [neg_abs_le (sigma_fn r v mu)]⟩

section line
variable (hh : angular_momentum r v = ⟨0, 0, 0⟩)
include hh

/-- On a straight line the velocity is the multiple `√mu·σ0/r0²` of the position. -/
theorem line_velocity : v = (Real.sqrt mu * sigma_fn r v mu / V3.norm r ^ 2) • r := by
  have h0 : V3.norm r ≠ 0 := ((norm_pos r).2 hr).ne'
  rw [← sigma_rv hmu, norm_sq]
  have hd : dot r r ≠ 0 := by rw [← norm_sq]; exact pow_ne_zero 2 h0
  have hx := congrArg V3.x hh
  have hy := congrArg V3.y hh
  have hz := congrArg V3.z hh
  simp only [angular_momentum, cross] at hx hy hz
  ext <;> simp only [smul_x, smul_y, smul_z] <;> field_simp <;> simp only [dot]
  · linear_combination r.y * hz * (-1) + r.z * hy
  · linear_combination r.x * hz - r.z * hx
  · linear_combination r.y * hx - r.x * hy

theorem line_invariant : sigma_fn r v mu ^ 2 = 2 * V3.norm r - alphaOf r v mu * V3.norm r ^ 2 := by
  have := state_invariant (v := v) hr hmu
  have hc : cross r v = ⟨0, 0, 0⟩ := hh
  rw [hc, ← inv_semimajor_axis] at this
  change _ - alphaOf r v mu * _ - _ = _ at this
  simp only [dot, mul_zero, add_zero, zero_div] at this
  linarith

theorem line_sig_sq (χ : ℝ) : sigOf r v mu χ ^ 2 = 2 * radOf r v mu χ - alphaOf r v mu * radOf r v mu χ ^ 2 := by
  have := radU_invariant (alphaOf r v mu) (V3.norm r) (sigma_fn r v mu) χ
  have := line_invariant hr hmu hh
  linarith

/-- C81: with zero angular momentum the body stays on the ray through its initial position: the position is the
nonnegative multiple `|r(t)|/|r|` of `r`, before and after any collision. -/
theorem C81_on_ray (t : ℝ) :
    (exactProp r v mu t).1 = (V3.norm (exactProp r v mu t).1 / V3.norm r) • r := by
  have h0 : V3.norm r ≠ 0 := ((norm_pos r).2 hr).ne'
  have hs : Real.sqrt mu ≠ 0 := (Real.sqrt_pos.2 hmu).ne'
  have hi := line_invariant hr hmu hh
  have hv := line_velocity hr hmu hh
  rw [norm_exactProp' hr hmu t, exactProp_eq]
  unfold radOf
  have e0 := U0_eq (exactChi r v mu t) (alphaOf r v mu)
  generalize exactChi r v mu t = χ at *
  generalize hα : alphaOf r v mu = α at *
  generalize hσ : sigma_fn r v mu = σ0 at *
  have hc : cF (V3.norm r) χ α + cG α (V3.norm r) σ0 mu χ * (Real.sqrt mu * σ0 / V3.norm r ^ 2)
      = radU α (V3.norm r) σ0 χ / V3.norm r := by
    simp only [cF, cG, radU]
    field_simp
    linear_combination U 2 χ α * hi - V3.norm r ^ 2 * e0
  simp only
  rw [← hc]
  generalize Real.sqrt mu * σ0 / V3.norm r ^ 2 = c at hv
  have hx := congrArg V3.x hv
  have hy := congrArg V3.y hv
  have hz := congrArg V3.z hv
  simp only [smul_x, smul_y, smul_z] at hx hy hz
  ext <;> simp only [add_x, add_y, add_z, smul_x, smul_y, smul_z, hx, hy, hz] <;> ring

/-- C81: and its velocity lies along that ray. -/
theorem C81_velocity_on_ray {t : ℝ} (ht : (exactProp r v mu t).1 ≠ ⟨0, 0, 0⟩) :
    (exactProp r v mu t).2
      = (dot (exactProp r v mu t).1 (exactProp r v mu t).2 / V3.norm (exactProp r v mu t).1 / V3.norm r) • r := by
  have h0 : V3.norm r ≠ 0 := ((norm_pos r).2 hr).ne'
  have hn := norm_exactProp' (v := v) hr hmu t
  have hR : radOf r v mu (exactChi r v mu t) ≠ 0 := by rw [← hn]; exact ((norm_pos _).2 ht).ne'
  have hrv : dot (exactProp r v mu t).1 (exactProp r v mu t).2 = _ := step_rv hr hmu hR
  rw [hrv, hn]
  have hs : Real.sqrt mu ≠ 0 := (Real.sqrt_pos.2 hmu).ne'
  have hi := line_invariant hr hmu hh
  have hv := line_velocity hr hmu hh
  rw [exactProp_eq]
  unfold radOf sigOf
  unfold radOf at hR
  clear hrv hn
  generalize exactChi r v mu t = χ at *
  have e0 := U0_eq χ (alphaOf r v mu)
  generalize hα : alphaOf r v mu = α at *
  generalize hσ : sigma_fn r v mu = σ0 at *
  have hc : cFt α (V3.norm r) σ0 mu χ + cGt α (V3.norm r) σ0 χ * (Real.sqrt mu * σ0 / V3.norm r ^ 2)
      = Real.sqrt mu * sigU α (V3.norm r) σ0 χ / radU α (V3.norm r) σ0 χ / V3.norm r := by
    simp only [cFt, cGt, sigU]
    have hRd : radU α (V3.norm r) σ0 χ = V3.norm r * U 0 χ α + σ0 * U 1 χ α + U 2 χ α := rfl
    generalize radU α (V3.norm r) σ0 χ = R at *
    field_simp
    linear_combination σ0 * hRd + U 1 χ α * hi
  simp only
  rw [← hc]
  generalize Real.sqrt mu * σ0 / V3.norm r ^ 2 = c at hv
  have hx := congrArg V3.x hv
  have hy := congrArg V3.y hv
  have hz := congrArg V3.z hv
  simp only [smul_x, smul_y, smul_z] at hx hy hz
  ext <;> simp only [add_x, add_y, add_z, smul_x, smul_y, smul_z, hx, hy, hz] <;> ring

theorem line_collision_chi : ∃ χ, radOf r v mu χ = 0 := by
  have hsc : Continuous (sigOf r v mu) :=
    continuous_iff_continuousAt.2 fun x => (hasDerivAt_sigU _ _ _ x).continuousAt
  have hs0 : sigOf r v mu 0 = sigma_fn r v mu := sigU_zero _ _ _
  rcases le_or_gt (alphaOf r v mu) 0 with hα | hα
  · obtain ⟨χ, hχ⟩ := line_sig_zero (v := v) hr hmu hα
    have h := line_sig_sq hr hmu hh χ
    have hn : 0 ≤ radOf r v mu χ := radOf_nonneg hr hmu
    rw [hχ] at h
    refine ⟨χ, ?_⟩
    by_contra hne
    have hp : 0 < radOf r v mu χ := lt_of_le_of_ne hn (Ne.symm hne)
    nlinarith [mul_nonneg (neg_nonneg.2 hα) (sq_nonneg (radOf r v mu χ))]
  · set q := Real.sqrt (alphaOf r v mu) with hq
    have hq0 : 0 < q := Real.sqrt_pos.2 hα
    obtain ⟨hU0, hU1, hU2⟩ := U_half hα
    have hneg : sigOf r v mu (0 + Real.pi / q) = -sigma_fn r v mu := by
      rw [sigOf, sigU_add, sigU, hU0, hU1, sigU_zero]; ring
    have hIVT := intermediate_value_uIcc (a := 0) (b := 0 + Real.pi / q) hsc.continuousOn
    rw [hs0, hneg] at hIVT
    obtain ⟨χ, -, hχ⟩ := hIVT (show (0 : ℝ) ∈ Set.uIcc (sigma_fn r v mu) (-sigma_fn r v mu) by
      rcases le_total 0 (sigma_fn r v mu) with h | h
      · exact Set.mem_uIcc.2 (Or.inr ⟨by linarith, h⟩)
      · exact Set.mem_uIcc.2 (Or.inl ⟨h, by linarith⟩))
    have h := line_sig_sq hr hmu hh χ
    rw [hχ] at h
    rcases eq_or_ne (radOf r v mu χ) 0 with h0 | h0
    · exact ⟨χ, h0⟩
    · refine ⟨χ + Real.pi / q, ?_⟩
      have hα2 : alphaOf r v mu * radOf r v mu χ = 2 := by
        have : radOf r v mu χ * (2 - alphaOf r v mu * radOf r v mu χ) = 0 := by linarith
        rcases mul_eq_zero.1 this with h' | h'
        · exact absurd h' h0
        · linarith
      rw [radOf, radU_add]
      change radU _ (radOf r v mu χ) (sigOf r v mu χ) _ = 0
      rw [hχ, radU, hU0, hU1, hU2]
      field_simp
      linarith

/-- C81: a body on a straight line is at the centre at some time. -/
theorem C81_collides : ∃ t, (exactProp r v mu t).1 = ⟨0, 0, 0⟩ := by
  obtain ⟨χ, hχ⟩ := line_collision_chi hr hmu hh
  obtain ⟨t, ht⟩ := exactChi_surjective (v := v) hr hmu χ
  refine ⟨t, ?_⟩
  by_contra hne
  have := (norm_pos _).2 hne
  rw [norm_exactProp' hr hmu, ht, hχ] at this
  exact lt_irrefl _ this

omit hh in
theorem collide_iff (t : ℝ) : (exactProp r v mu t).1 = ⟨0, 0, 0⟩ ↔ radOf r v mu (exactChi r v mu t) = 0 := by
  rw [← norm_exactProp' hr hmu]
  constructor
  · intro h; rw [h]; simp [V3.norm, dot]
  · intro h; by_contra hne; exact ((norm_pos _).2 hne).ne' h

theorem sig_of_collide {χ : ℝ} (h : radOf r v mu χ = 0) : sigOf r v mu χ = 0 := by
  have := line_sig_sq hr hmu hh χ
  rw [h] at this
  simpa using this

/-- C81: the energy decides how often. Without bound motion there is exactly one collision, ever. -/
theorem C81_one_collision (hα : 1 / semimajor_axis (V3.norm r) (V3.norm v) mu ≤ 0) :
    ∃! t, (exactProp r v mu t).1 = ⟨0, 0, 0⟩ := by
  obtain ⟨t, ht⟩ := C81_collides hr hmu hh
  refine ⟨t, ht, fun s hs => ?_⟩
  simp only [collide_iff hr hmu] at ht hs
  refine (strictMono_exactChi' (v := v) hr hmu).injective ?_
  exact (line_sig_mono (v := v) hr hmu hα).injective ((sig_of_collide hr hmu hh hs).trans (sig_of_collide hr hmu hh ht).symm)

theorem chi_after {tc : ℝ} (hc : (exactProp r v mu tc).1 = ⟨0, 0, 0⟩) {s x : ℝ}
    (hx : U 3 x (alphaOf r v mu) = Real.sqrt mu * s) :
    exactChi r v mu (tc + s) = exactChi r v mu tc + x ∧
    radOf r v mu (exactChi r v mu (tc + s)) = U 2 x (alphaOf r v mu) ∧
    sigOf r v mu (exactChi r v mu (tc + s)) = U 1 x (alphaOf r v mu) := by
  have hR := (collide_iff hr hmu tc).1 hc
  have hS := sig_of_collide hr hmu hh hR
  unfold radOf at hR
  unfold sigOf at hS
  have h1 : exactChi r v mu (tc + s) = exactChi r v mu tc + x := by
    refine (exactChi_unique' hr hmu (isRoot_iff.2 ?_)).symm
    rw [kepU_add, kepU_exactChi' hr hmu, hR, hS, kepU, hx]; ring
  refine ⟨h1, ?_, ?_⟩
  · rw [h1, radOf, radU_add, hR, hS, radU]; ring
  · rw [h1, sigOf, sigU_add, hR, hS, sigU]; ring

theorem after_exists {tc : ℝ} (hc : (exactProp r v mu tc).1 = ⟨0, 0, 0⟩) (s : ℝ) :
    ∃ x, U 3 x (alphaOf r v mu) = Real.sqrt mu * s := by
  have hR := (collide_iff hr hmu tc).1 hc
  have hS := sig_of_collide hr hmu hh hR
  unfold radOf at hR
  unfold sigOf at hS
  obtain ⟨x, hx⟩ := (kepU_bijective (α := alphaOf r v mu) (r0 := 0) (σ0 := 0) (fun χ => by
    have := radOf_nonneg (v := v) (χ := exactChi r v mu tc + χ) hr hmu
    rwa [radOf, radU_add, hR, hS] at this)).2 (Real.sqrt mu * s)
  exact ⟨x, by rw [← hx, kepU]; ring⟩

/-- C81: on a bound line the collisions follow each other at the period. -/
theorem C81_collision_times (ha : 0 < semimajor_axis (V3.norm r) (V3.norm v) mu) {tc : ℝ}
    (hc : (exactProp r v mu tc).1 = ⟨0, 0, 0⟩) (t : ℝ) :
    (exactProp r v mu t).1 = ⟨0, 0, 0⟩ ↔
      ∃ k : ℤ, t = tc + k * orb_period (semimajor_axis (V3.norm r) (V3.norm v) mu) mu := by
  have hs : 0 < Real.sqrt mu := Real.sqrt_pos.2 hmu
  set a := semimajor_axis (V3.norm r) (V3.norm v) mu with hadef
  have hα : alphaOf r v mu = 1 / a := rfl
  have hαpos : 0 < 1 / a := by positivity
  set q := Real.sqrt (1 / a) with hq
  have hq0 : 0 < q := Real.sqrt_pos.2 hαpos
  have hq2 : q ^ 2 = 1 / a := Real.sq_sqrt hαpos.le
  have hP : Real.sqrt mu * orb_period a mu = 2 * Real.pi / q * a := by
    have hpi : 0 < Real.pi := Real.pi_pos
    simp only [orb_period, Nat.cast_ofNat, pi_real, sqrt_real]
    rw [show a ^ 3 / mu = (a / q / Real.sqrt mu) ^ 2 by
      rw [div_pow, div_pow, hq2, Real.sq_sqrt hmu.le]; field_simp]
    rw [Real.sqrt_sq (by positivity)]
    field_simp
  have hU2 : ∀ x, U 2 x (1 / a) = 0 ↔ Real.cos (q * x) = 1 := fun x => by
    rw [U_of_rec 0 hαpos.ne', ← C07_ufunc0]
    simp only [ufunc0, Nat.cast_zero, lt_real, decide_eq_true_eq, hαpos, if_true, sqrt_real, cos_real, ← hq]
    rw [div_eq_zero_iff, or_iff_left hαpos.ne']
    simp only [Nat.factorial, pow_zero, Nat.cast_one, div_one]
    constructor <;> intro h <;> linarith
  have hU3 : ∀ x, Real.sin (q * x) = 0 → U 3 x (1 / a) = x * a := fun x hx => by
    rw [U_of_rec 1 hαpos.ne', ← C07_ufunc1]
    simp only [ufunc1, Nat.cast_zero, lt_real, decide_eq_true_eq, hαpos, if_true, sqrt_real, sin_real, ← hq, hx]
    simp
  constructor
  · intro ht
    obtain ⟨x, hx⟩ := after_exists hr hmu hh hc (t - tc)
    obtain ⟨-, hrad, -⟩ := chi_after hr hmu hh hc hx
    rw [add_sub_cancel, (collide_iff hr hmu t).1 ht, hα, eq_comm, hU2, Real.cos_eq_one_iff] at hrad
    obtain ⟨k, hk⟩ := hrad
    refine ⟨k, ?_⟩
    have h3 := hU3 x (by rw [← hk, show (k : ℝ) * (2 * Real.pi) = ((2 * k : ℤ) : ℝ) * Real.pi by push_cast; ring]; exact Real.sin_int_mul_pi _)
    rw [hα, h3] at hx
    have hxk : x = k * (2 * Real.pi) / q := by field_simp; linarith
    have : Real.sqrt mu * (t - tc) = Real.sqrt mu * (k * orb_period a mu) := by
      rw [← hx, mul_left_comm, hP, hxk]; ring
    have := mul_left_cancel₀ hs.ne' this
    linarith
  · rintro ⟨k, rfl⟩
    have hqx : q * (k * (2 * Real.pi) / q) = k * (2 * Real.pi) := by field_simp
    have hsin : Real.sin (q * (k * (2 * Real.pi) / q)) = 0 := by
      rw [hqx, show (k : ℝ) * (2 * Real.pi) = ((2 * k : ℤ) : ℝ) * Real.pi by push_cast; ring]
      exact Real.sin_int_mul_pi _
    obtain ⟨-, hrad, -⟩ := chi_after hr hmu hh hc (s := k * orb_period a mu) (x := k * (2 * Real.pi) / q) (by
      rw [hα, hU3 _ hsin]; linear_combination (-(k : ℝ)) * hP)
    rw [collide_iff hr hmu, hrad, hα, hU2, hqx]
    exact Real.cos_int_mul_two_pi k

/-- C81: after a collision the motion is the motion before it run backwards: the body comes back along the same ray with
the opposite velocity. -/
theorem C81_bounce {tc : ℝ} (hc : (exactProp r v mu tc).1 = ⟨0, 0, 0⟩) (s : ℝ) :
    (exactProp r v mu (tc + s)).1 = (exactProp r v mu (tc - s)).1 ∧
    ((exactProp r v mu (tc + s)).1 ≠ ⟨0, 0, 0⟩ →
      (exactProp r v mu (tc + s)).2 = -(exactProp r v mu (tc - s)).2) := by
  obtain ⟨x, hx⟩ := after_exists hr hmu hh hc s
  obtain ⟨-, hR1, hS1⟩ := chi_after hr hmu hh hc hx
  obtain ⟨-, hR2, hS2⟩ := chi_after hr hmu hh hc (s := -s) (x := -x) (by
    rw [U_neg_left, hx]; ring)
  rw [← sub_eq_add_neg] at hR2 hS2
  have hRR : radOf r v mu (exactChi r v mu (tc + s)) = radOf r v mu (exactChi r v mu (tc - s)) := by
    rw [hR1, hR2, U_neg_left]; ring
  have hSS : sigOf r v mu (exactChi r v mu (tc + s)) = -sigOf r v mu (exactChi r v mu (tc - s)) := by
    rw [hS1, hS2, U_neg_left]; ring
  have hp : (exactProp r v mu (tc + s)).1 = (exactProp r v mu (tc - s)).1 := by
    rw [C81_on_ray hr hmu hh (tc + s), C81_on_ray hr hmu hh (tc - s), norm_exactProp' hr hmu, norm_exactProp' hr hmu, hRR]
  refine ⟨hp, fun hne => ?_⟩
  have hne' : (exactProp r v mu (tc - s)).1 ≠ ⟨0, 0, 0⟩ := hp ▸ hne
  rw [C81_velocity_on_ray hr hmu hh hne, C81_velocity_on_ray hr hmu hh hne', ← hp]
  have hd : dot (exactProp r v mu (tc + s)).1 (exactProp r v mu (tc + s)).2 = _ :=
    step_rv hr hmu (fun h => hne ((collide_iff hr hmu _).2 h))
  have hd' : dot (exactProp r v mu (tc - s)).1 (exactProp r v mu (tc - s)).2 = _ :=
    step_rv hr hmu (fun h => hne' ((collide_iff hr hmu _).2 h))
  rw [← hp] at hd'
  rw [hd, hd', hSS]
  ext <;> simp only [neg_x, neg_y, neg_z, smul_x, smul_y, smul_z] <;> ring

/-- C81: near a collision the speed exceeds every bound. -/
theorem C81_speed_unbounded {tc : ℝ} (hc : (exactProp r v mu tc).1 = ⟨0, 0, 0⟩) (M : ℝ) :
    ∀ᶠ t in 𝓝[≠] tc, (exactProp r v mu t).1 ≠ ⟨0, 0, 0⟩ ∧ M < V3.norm (exactProp r v mu t).2 := by
  have hR := (collide_iff hr hmu tc).1 hc
  have hS := sig_of_collide hr hmu hh hR
  set χc := exactChi r v mu tc with hχc
  have htend : Tendsto (exactChi r v mu) (𝓝[≠] tc) (𝓝[≠] χc) := by
    refine tendsto_nhdsWithin_of_tendsto_nhds_of_eventually_within _
      ((continuous_exactChi' hr hmu).continuousAt.tendsto.mono_left nhdsWithin_le_nhds) ?_
    filter_upwards [self_mem_nhdsWithin] with t ht h
    exact ht ((strictMono_exactChi' (v := v) hr hmu).injective h)
  have hd := hasDerivAt_sigU (alphaOf r v mu) (V3.norm r) (sigma_fn r v mu) χc
  have hne : ∀ᶠ χ in 𝓝[≠] χc, radOf r v mu χ ≠ 0 := by
    have h1 : (1 - alphaOf r v mu * radU (alphaOf r v mu) (V3.norm r) (sigma_fn r v mu) χc) ≠ 0 := by
      change (1 - alphaOf r v mu * radOf r v mu χc) ≠ 0
      rw [hR]; norm_num
    filter_upwards [hd.eventually_ne h1 (c := 0)] with χ hχ h
    exact hχ (sig_of_collide hr hmu hh h)
  have hsm : ∀ᶠ χ in 𝓝[≠] χc, radOf r v mu χ < 2 * mu / (mu * alphaOf r v mu + M ^ 2 + |mu * alphaOf r v mu| + 1) := by
    have hpos : 0 < 2 * mu / (mu * alphaOf r v mu + M ^ 2 + |mu * alphaOf r v mu| + 1) := by
      have := neg_abs_le (mu * alphaOf r v mu)
      have := sq_nonneg M
      exact div_pos (by linarith) (by linarith)
    have hcont : ContinuousAt (radOf r v mu) χc := (hasDerivAt_radU _ _ _ _).continuousAt
    exact nhdsWithin_le_nhds (hcont.eventually_lt continuousAt_const (by rw [hR]; exact hpos))
  filter_upwards [htend.eventually hne, htend.eventually hsm] with t h1 h2
  refine ⟨fun h => h1 ((collide_iff hr hmu t).1 h), ?_⟩
  have hp : 0 < radOf r v mu (exactChi r v mu t) := lt_of_le_of_ne (radOf_nonneg hr hmu) (Ne.symm h1)
  have hvv : dot (exactProp r v mu t).2 (exactProp r v mu t).2 = _ := step_vv hr hmu h1
  rw [← norm_sq] at hvv
  refine lt_of_pow_lt_pow_left₀ 2 (norm_nonneg _) ?_
  rw [hvv]
  have hden : 0 < mu * alphaOf r v mu + M ^ 2 + |mu * alphaOf r v mu| + 1 := by
    have := neg_abs_le (mu * alphaOf r v mu)
    have := sq_nonneg M
    linarith
  rw [lt_div_iff₀ hden] at h2
  have : mu * alphaOf r v mu + M ^ 2 + |mu * alphaOf r v mu| + 1 < 2 * mu / radOf r v mu (exactChi r v mu t) := by
    rw [lt_div_iff₀ hp]; linarith
  have e : mu * (2 / radOf r v mu (exactChi r v mu t) - alphaOf r v mu)
      = 2 * mu / radOf r v mu (exactChi r v mu t) - mu * alphaOf r v mu := by ring
  rw [e]
  linarith [abs_nonneg (mu * alphaOf r v mu)]

omit hh in
theorem line_periodic_int (ha : 0 < semimajor_axis (V3.norm r) (V3.norm v) mu) (t : ℝ) (k : ℤ) :
    exactProp r v mu (t + k * orb_period (semimajor_axis (V3.norm r) (V3.norm v) mu) mu) = exactProp r v mu t := by
  have hp : Function.Periodic (exactProp r v mu) (orb_period (semimajor_axis (V3.norm r) (V3.norm v) mu) mu) :=
    fun x => C81_periodic hr hmu ha x
  exact hp.int_mul k t

omit hh in
theorem collide_shift {t1 t2 tc : ℝ} (h1 : (exactProp r v mu t1).1 ≠ ⟨0, 0, 0⟩)
    (h : exactProp r v mu t1 = exactProp r v mu t2) (hc : (exactProp r v mu tc).1 = ⟨0, 0, 0⟩) :
    (exactProp r v mu (tc + (t2 - t1))).1 = ⟨0, 0, 0⟩ := by
  have e1 := (C81_composition hr hmu t1 (tc - t1) h1).1
  have e2 := (C81_composition hr hmu t2 (tc - t1) (by rwa [← h])).1
  rw [show t1 + (tc - t1) = tc by ring, hc] at e1
  rw [← h, e1] at e2
  rw [show tc + (t2 - t1) = t2 + (tc - t1) by ring, ← e2]

/-- C81: the period of a bound line is its least period: off the collisions the states at two times agree exactly when the
times differ by whole periods. -/
theorem C81_return (ha : 0 < semimajor_axis (V3.norm r) (V3.norm v) mu) {t1 t2 : ℝ}
    (h1 : (exactProp r v mu t1).1 ≠ ⟨0, 0, 0⟩) :
    exactProp r v mu t1 = exactProp r v mu t2 ↔
      ∃ k : ℤ, t2 = t1 + k * orb_period (semimajor_axis (V3.norm r) (V3.norm v) mu) mu := by
  constructor
  · intro h
    obtain ⟨tc, hc⟩ := C81_collides hr hmu hh
    obtain ⟨k, hk⟩ := (C81_collision_times hr hmu hh ha hc _).1 (collide_shift hr hmu h1 h hc)
    exact ⟨k, by linarith⟩
  · rintro ⟨k, rfl⟩
    exact (line_periodic_int hr hmu ha t1 k).symm

/-- C81: an unbound line never returns to a state. -/
theorem C81_no_return (hα : 1 / semimajor_axis (V3.norm r) (V3.norm v) mu ≤ 0) {t1 t2 : ℝ}
    (h1 : (exactProp r v mu t1).1 ≠ ⟨0, 0, 0⟩) : exactProp r v mu t1 = exactProp r v mu t2 ↔ t1 = t2 := by
  refine ⟨fun h => ?_, fun h => by rw [h]⟩
  obtain ⟨tc, hc, hu⟩ := C81_one_collision hr hmu hh hα
  have := hu _ (collide_shift hr hmu h1 h hc)
  linarith

omit hmu in
/-- C81: the eccentricity is 1 whatever the energy. -/
theorem C81_eccentricity : eccentricity_vector r v mu = (-(1 / V3.norm r)) • r ∧
    V3.norm (eccentricity_vector r v mu) = 1 := by
  have h0 : 0 < V3.norm r := (norm_pos r).2 hr
  have e : eccentricity_vector r v mu = (-(1 / V3.norm r)) • r := by
    simp only [eccentricity_vector, hh]
    ext <;> simp [cross] <;> ring
  refine ⟨e, ?_⟩
  rw [e, norm_smul, abs_neg, abs_of_pos (by positivity)]
  field_simp

end line
end

/-- A body dropped from rest at distance 1 (`mu = 1`) meets the hypotheses; it reaches the centre after half the period of
the line, which is `2π·√(1/8)`, and is back at rest at its starting point after a full one. -/
example : (exactProp (⟨1, 0, 0⟩ : V3 ℝ) ⟨0, 0, 0⟩ 1 (Real.pi * Real.sqrt (1 / 8))).1 = ⟨0, 0, 0⟩ ∧
    exactProp (⟨1, 0, 0⟩ : V3 ℝ) ⟨0, 0, 0⟩ 1 (2 * (Real.pi * Real.sqrt (1 / 8))) = (⟨1, 0, 0⟩, ⟨0, 0, 0⟩) := by
  have hr : (⟨1, 0, 0⟩ : V3 ℝ) ≠ ⟨0, 0, 0⟩ := by intro h; simpa using congrArg V3.x h
  have hn : V3.norm (⟨1, 0, 0⟩ : V3 ℝ) = 1 := by simp [V3.norm, dot]
  have ha : semimajor_axis (V3.norm (⟨1, 0, 0⟩ : V3 ℝ)) (V3.norm (⟨0, 0, 0⟩ : V3 ℝ)) 1 = 1 / 2 := by
    simp [semimajor_axis, V3.norm, dot]
  have hα : alphaOf (⟨1, 0, 0⟩ : V3 ℝ) ⟨0, 0, 0⟩ 1 = 2 := by rw [alphaOf, ha]; norm_num
  have hσ : sigma_fn (⟨1, 0, 0⟩ : V3 ℝ) ⟨0, 0, 0⟩ 1 = 0 := by simp [sigma_fn, dot]
  obtain ⟨u0, u1, u2⟩ := U_half (α := 2) two_pos
  have u3 : U 3 (Real.pi / Real.sqrt 2) 2 = Real.pi / Real.sqrt 2 / 2 := by
    rw [U_of_rec 1 two_ne_zero, u1]; simp
  have h8 : Real.sqrt (1 / 8) = 1 / Real.sqrt 2 / 2 := by
    rw [show (1 / 8 : ℝ) = (1 / Real.sqrt 2 / 2) ^ 2 by
      rw [div_pow, div_pow, Real.sq_sqrt two_pos.le]; norm_num]
    exact Real.sqrt_sq (by positivity)
  have hχ : exactChi (⟨1, 0, 0⟩ : V3 ℝ) ⟨0, 0, 0⟩ 1 (Real.pi * Real.sqrt (1 / 8)) = Real.pi / Real.sqrt 2 := by
    refine (exactChi_unique' hr one_pos (isRoot_iff.2 ?_)).symm
    rw [hα, hσ, hn, kepU, u1, u2, u3, h8, Real.sqrt_one]; ring
  constructor
  · rw [collide_iff hr one_pos, hχ, radOf, hα, hσ, hn, radU, u0, u1, u2]; norm_num
  · have := C81_periodic hr one_pos (v := ⟨0, 0, 0⟩) (by rw [ha]; norm_num) 0
    rw [ha, exactProp_zero' hr one_pos, zero_add] at this
    rw [← this, orb_period]
    congr 1
    simp only [Nat.cast_ofNat, pi_real, sqrt_real]
    norm_num
    ring

end Adx
