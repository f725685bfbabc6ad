import Verif.Lemmas.Exact
import Verif.Props.C19
import Verif.Props.C01
import Verif.Props.C41

/-! # C21, C23, C24, C31: exact Kepler propagation is the two-body motion

`exactProp r v mu t` is what `kepler` returns if its root search is replaced by the exact root
(`Verif/Lemmas/Exact.lean`); C23 relates the code's own result to it. -/

namespace Adx
open Spec V3

theorem const_on {s : Set ℝ} (hs : IsOpen s) (hc : IsPreconnected s) (h0 : (0 : ℝ) ∈ s) {f : ℝ → ℝ}
    (hd : ∀ t ∈ s, HasDerivAt f 0 t) {t : ℝ} (ht : t ∈ s) : f t = f 0 :=
  hs.is_const_of_deriv_eq_zero hc (fun x hx => (hd x hx).differentiableAt.differentiableWithinAt)
    (fun x hx => (hd x hx).deriv) ht h0

section
variable {r v : V3 ℝ} {mu : ℝ}

theorem exactProp_eq (t : ℝ) :
    exactProp r v mu t
      = (cF (V3.norm r) (exactChi r v mu t) (alphaOf r v mu) • r
          + cG (alphaOf r v mu) (V3.norm r) (sigma_fn r v mu) mu (exactChi r v mu t) • v,
        cFt (alphaOf r v mu) (V3.norm r) (sigma_fn r v mu) mu (exactChi r v mu t) • r
          + cGt (alphaOf r v mu) (V3.norm r) (sigma_fn r v mu) (exactChi r v mu t) • v) := by
  rw [exactProp, stepOf, keplerStep_eq]

variable (hmu : 0 < mu) (hh : angular_momentum r v ≠ ⟨0, 0, 0⟩)
include hmu hh

theorem pos_ne : r ≠ ⟨0, 0, 0⟩ := (norm_pos r).1 (state_invariant_pos hmu hh).1

theorem exactProp_zero : exactProp r v mu 0 = (r, v) := by
  rw [exactProp_eq, exactChi_zero hmu hh]
  simp only [cF, cG, cFt, cGt, U_zero_left]
  simp only [OfNat.ofNat_ne_zero, if_false, one_ne_zero, mul_zero, add_zero, zero_div, sub_zero]
  refine Prod.ext ?_ ?_ <;> ext <;> simp

/-- C21: the propagated state starts at the initial state and moves under `-mu r/|r|³`, for all times. -/
theorem C21_solves_two_body :
    exactProp r v mu 0 = (r, v) ∧
    TwoBodyOn mu Set.univ (fun t => (exactProp r v mu t).1) (fun t => (exactProp r v mu t).2) := by
  refine ⟨exactProp_zero hmu hh, fun t _ => ?_⟩
  have hr := pos_ne hmu hh
  have h0 : V3.norm r ≠ 0 := ((norm_pos r).2 hr).ne'
  have hR : 0 < radOf r v mu (exactChi r v mu t) := radOf_pos hmu hh
  have hX := hasDerivAt_exactChi hmu hh t
  have hn : V3.norm (exactProp r v mu t).1 = radOf r v mu (exactChi r v mu t) := step_norm hr hmu
  have hF := hasDerivAt_cF hX
  have hG := hasDerivAt_cG hmu hR.ne' hX
  have hFt := hasDerivAt_cFt hmu h0 hR.ne' hX
  have hGt := hasDerivAt_cGt hmu hR.ne' hX
  have hsq : Real.sqrt ((exactProp r v mu t).1.x ^ 2 + (exactProp r v mu t).1.y ^ 2
      + (exactProp r v mu t).1.z ^ 2) = radOf r v mu (exactChi r v mu t) := by
    rw [← hn]; exact radius_eq_norm _
  refine ⟨?_, ?_, ?_⟩
  · rw [← norm_pos, hn]; exact hR
  · simp only [exactProp_eq]
    exact ⟨(hF.mul_const r.x).fun_add (hG.mul_const v.x), (hF.mul_const r.y).fun_add (hG.mul_const v.y),
      (hF.mul_const r.z).fun_add (hG.mul_const v.z)⟩
  · simp only [hsq]
    simp only [exactProp_eq]
    refine ⟨((hFt.mul_const r.x).fun_add (hGt.mul_const v.x)).congr_deriv ?_,
      ((hFt.mul_const r.y).fun_add (hGt.mul_const v.y)).congr_deriv ?_,
      ((hFt.mul_const r.z).fun_add (hGt.mul_const v.z)).congr_deriv ?_⟩ <;>
      simp only [add_x, add_y, add_z, smul_x, smul_y, smul_z] <;> ring

/-- C21: the acceleration is the value of the library's `point_mass_grav` at the propagated position. -/
theorem C21_acceleration_is_point_mass_grav (t : ℝ) (rest : List ℝ) (args : Args ℝ)
    (hm : args "mu" = some mu) :
    ∃ a, point_mass_grav t ⟨(exactProp r v mu t).1, rest⟩ args = .ok a ∧
      HasDerivV (fun t => (exactProp r v mu t).2) a t := by
  refine ⟨_, C41_point_mass_is_newton t mu _ args hm, ?_⟩
  have h := ((C21_solves_two_body hmu hh).2 t (Set.mem_univ t)).2.2
  have e : Real.sqrt ((exactProp r v mu t).1.x ^ 2 + (exactProp r v mu t).1.y ^ 2
      + (exactProp r v mu t).1.z ^ 2) = V3.norm (exactProp r v mu t).1 := radius_eq_norm _
  simp only [e, neg_div] at h
  exact h

/-- C21: it is the only motion from that initial state: any solution on any open interval (open connected set)
around time 0 coincides with it there. -/
theorem C21_unique {s : Set ℝ} (hs : IsOpen s) (hc : IsPreconnected s) (h0s : (0 : ℝ) ∈ s)
    {q w : ℝ → V3 ℝ} (hqw : TwoBodyOn mu s q w) (hq0 : q 0 = r) (hw0 : w 0 = v) :
    ∀ t ∈ s, (q t, w t) = exactProp r v mu t := by
  have hr := pos_ne hmu hh
  have h0 : V3.norm r ≠ 0 := ((norm_pos r).2 hr).ne'
  have hsq : 0 < Real.sqrt mu := Real.sqrt_pos.2 hmu
  have hs2 : Real.sqrt mu ^ 2 = mu := Real.sq_sqrt hmu.le
  have hrad : ∀ t, Real.sqrt ((q t).x ^ 2 + (q t).y ^ 2 + (q t).z ^ 2) = V3.norm (q t) :=
    fun t => radius_eq_norm _
  simp only [TwoBodyOn, hrad] at hqw
  have hne : ∀ t ∈ s, V3.norm (q t) ≠ 0 := fun t ht => ((norm_pos _).2 (hqw t ht).1).ne'
  have hq := fun t ht => (hqw t ht).2.1
  have hw := fun t ht => (hqw t ht).2.2
  -- radius and energy
  have hρ := fun t ht => (hq t ht).norm (hne t ht)
  have hE : ∀ t ∈ s, invA (q t) (w t) mu = alphaOf r v mu := by
    intro t ht
    rw [alphaOf, inv_semimajor_axis, ← hq0, ← hw0]
    refine const_on (f := fun t => invA (q t) (w t) mu) hs hc h0s (fun t ht => ?_) ht
    have h1 := ((hρ t ht).fun_inv (hne t ht)).const_mul 2
    have h2 := ((hw t ht).dot (hw t ht)).div_const mu
    have : (fun t => invA (q t) (w t) mu) = fun t => 2 * (V3.norm (q t))⁻¹ - dot (w t) (w t) / mu := by
      funext t; simp only [invA, div_eq_mul_inv]
    rw [this]
    refine (h1.fun_sub h2).congr_deriv ?_
    have hn := hne t ht
    have hd1 : ∀ k : ℝ, dot (k • q t) (w t) = k * dot (q t) (w t) := fun k => by
      simp only [dot, smul_x, smul_y, smul_z]; ring
    rw [dot_comm (w t) _, hd1]
    field_simp; ring
  have hww : ∀ t ∈ s, dot (w t) (w t) = mu * (2 / V3.norm (q t) - alphaOf r v mu) := by
    intro t ht
    rw [← hE t ht, invA]; field_simp; ring
  -- the radial velocity
  set α := alphaOf r v mu with hα
  set r0 := V3.norm r with hr0
  set σ0 := sigma_fn r v mu with hσ0
  have hσ : ∀ t ∈ s, HasDerivAt (fun t => sigma_fn (q t) (w t) mu)
      (Real.sqrt mu * (1 / V3.norm (q t) - α)) t := by
    intro t ht
    have h1 := ((hq t ht).dot (hw t ht)).div_const (Real.sqrt mu)
    refine h1.congr_deriv ?_
    have hn := hne t ht
    have hd1 : ∀ k : ℝ, dot (q t) (k • q t) = k * dot (q t) (q t) := fun k => by
      simp only [dot, smul_x, smul_y, smul_z]; ring
    rw [hd1, hww t ht, ← norm_sq]
    rw [div_eq_iff hsq.ne']
    field_simp
    rw [hs2]; ring
  have hρ' : ∀ t ∈ s, HasDerivAt (fun t => V3.norm (q t))
      (Real.sqrt mu * sigma_fn (q t) (w t) mu / V3.norm (q t)) t := fun t ht => by
    have := hρ t ht
    rwa [sigma_rv hmu] at this
  -- the universal anomaly along the solution
  set X : ℝ → ℝ := fun t => α * Real.sqrt mu * t + sigma_fn (q t) (w t) mu - σ0 with hX
  have hXd : ∀ t ∈ s, HasDerivAt X (Real.sqrt mu / V3.norm (q t)) t := by
    intro t ht
    have h1 := (((hasDerivAt_id' t).const_mul (α * Real.sqrt mu)).fun_add (hσ t ht)).sub_const σ0
    refine h1.congr_deriv ?_
    ring
  have hX0 : X 0 = 0 := by simp only [hX, hq0, hw0, hσ0]; ring
  -- radius and radial velocity are those of the universal formulas
  have hP : ∀ t ∈ s,
      U 0 (X t) α * (V3.norm (q t) - radU α r0 σ0 (X t))
        - U 1 (X t) α * (sigma_fn (q t) (w t) mu - sigU α r0 σ0 (X t)) = 0 := by
    intro t ht
    have := const_on (f := fun t => U 0 (X t) α * (V3.norm (q t) - radU α r0 σ0 (X t))
        - U 1 (X t) α * (sigma_fn (q t) (w t) mu - sigU α r0 σ0 (X t))) hs hc h0s (fun t ht => ?_) ht
    · simp only [hX0, hq0, hw0, radU_zero, sigU_zero] at this
      rw [this]; simp [r0, σ0]
    have hn := hne t ht
    have a1 := (hasDerivAt_U0_chi (X t) α).comp t (hXd t ht)
    have a2 := (hρ' t ht).fun_sub ((hasDerivAt_radU α r0 σ0 (X t)).comp t (hXd t ht))
    have a3 := (hasDerivAt_U_chi 0 (X t) α).comp t (hXd t ht)
    have a4 := (hσ t ht).fun_sub ((hasDerivAt_sigU α r0 σ0 (X t)).comp t (hXd t ht))
    refine ((a1.fun_mul a2).fun_sub (a3.fun_mul a4)).congr_deriv ?_
    simp only [Function.comp, zero_add]
    field_simp
    ring
  have hQ : ∀ t ∈ s,
      α * U 1 (X t) α * (V3.norm (q t) - radU α r0 σ0 (X t))
        + U 0 (X t) α * (sigma_fn (q t) (w t) mu - sigU α r0 σ0 (X t)) = 0 := by
    intro t ht
    have := const_on (f := fun t => α * U 1 (X t) α * (V3.norm (q t) - radU α r0 σ0 (X t))
        + U 0 (X t) α * (sigma_fn (q t) (w t) mu - sigU α r0 σ0 (X t))) hs hc h0s (fun t ht => ?_) ht
    · simp only [hX0, hq0, hw0, radU_zero, sigU_zero] at this
      rw [this]; simp [r0, σ0]
    have hn := hne t ht
    have a1 := (hasDerivAt_U0_chi (X t) α).comp t (hXd t ht)
    have a2 := (hρ' t ht).fun_sub ((hasDerivAt_radU α r0 σ0 (X t)).comp t (hXd t ht))
    have a3 := ((hasDerivAt_U_chi 0 (X t) α).comp t (hXd t ht)).const_mul α
    have a4 := (hσ t ht).fun_sub ((hasDerivAt_sigU α r0 σ0 (X t)).comp t (hXd t ht))
    refine ((a3.fun_mul a2).fun_add (a1.fun_mul a4)).congr_deriv ?_
    simp only [Function.comp, zero_add]
    field_simp
    ring
  have hrho : ∀ t ∈ s, V3.norm (q t) = radU α r0 σ0 (X t) := by
    intro t ht
    have := U_pythagoras (X t) α
    linear_combination U 0 (X t) α * hP t ht + U 1 (X t) α * hQ t ht
      - (V3.norm (q t) - radU α r0 σ0 (X t)) * this
  -- hence the anomaly is the root
  have hroot : ∀ t ∈ s, X t = exactChi r v mu t := by
    intro t ht
    refine exactChi_unique hmu hh (isRoot_iff.2 ?_)
    have := const_on (f := fun t => kepU α r0 σ0 (X t) - Real.sqrt mu * t) hs hc h0s (fun t ht => ?_) ht
    · simp only [hX0, kepU_zero, mul_zero, sub_zero] at this
      linarith
    refine (((hasDerivAt_kepU α r0 σ0 (X t)).comp t (hXd t ht)).fun_sub
      ((hasDerivAt_id' t).const_mul (Real.sqrt mu))).congr_deriv ?_
    rw [hrho t ht]
    have : radU α r0 σ0 (X t) ≠ 0 := by rw [← hrho t ht]; exact hne t ht
    field_simp; ring
  -- both motions satisfy the same linear equation now
  intro t ht
  have hR : ∀ t, 0 < radU α r0 σ0 (exactChi r v mu t) := fun t => radOf_pos hmu hh
  have hXe := hasDerivAt_exactChi hmu hh
  have hF := fun t => hasDerivAt_cF (hXe t)
  have hG := fun t => hasDerivAt_cG hmu (hR t).ne' (hXe t)
  have hFt := fun t => hasDerivAt_cFt hmu h0 (hR t).ne' (hXe t)
  have hGt := fun t => hasDerivAt_cGt hmu (hR t).ne' (hXe t)
  have hnq : ∀ t ∈ s, V3.norm (q t) = radU α r0 σ0 (exactChi r v mu t) := fun t ht => by
    rw [hrho t ht, hroot t ht]
  have scalar : ∀ (a b : ℝ → ℝ) (a0 b0 : ℝ), a 0 = a0 → b 0 = b0 →
      (∀ t ∈ s, HasDerivAt a (b t) t) →
      (∀ t ∈ s, HasDerivAt b (-mu / V3.norm (q t) ^ 3 * a t) t) →
      a t = cF r0 (exactChi r v mu t) α * a0 + cG α r0 σ0 mu (exactChi r v mu t) * b0 ∧
      b t = cFt α r0 σ0 mu (exactChi r v mu t) * a0 + cGt α r0 σ0 (exactChi r v mu t) * b0 := by
    intro a b a0 b0 ha0 hb0 ha hb
    have z0 : exactChi r v mu 0 = 0 := exactChi_zero hmu hh
    have w1 := const_on (f := fun t => a t * cFt α r0 σ0 mu (exactChi r v mu t)
      - b t * cF r0 (exactChi r v mu t) α) hs hc h0s (fun t ht => by
        refine (((ha t ht).fun_mul (hFt t)).fun_sub ((hb t ht).fun_mul (hF t))).congr_deriv ?_
        rw [hnq t ht]; ring) ht
    have w2 := const_on (f := fun t => a t * cGt α r0 σ0 (exactChi r v mu t)
      - b t * cG α r0 σ0 mu (exactChi r v mu t)) hs hc h0s (fun t ht => by
        refine (((ha t ht).fun_mul (hGt t)).fun_sub ((hb t ht).fun_mul (hG t))).congr_deriv ?_
        rw [hnq t ht]; ring) ht
    have v1 : a 0 * cFt α r0 σ0 mu (exactChi r v mu 0) - b 0 * cF r0 (exactChi r v mu 0) α = -b0 := by
      rw [z0, ha0, hb0]; simp [cFt, cF, U_zero_left]
    have v2 : a 0 * cGt α r0 σ0 (exactChi r v mu 0) - b 0 * cG α r0 σ0 mu (exactChi r v mu 0) = a0 := by
      rw [z0, ha0, hb0]; simp [cGt, cG, U_zero_left]
    have hwr := lagrange_wronskian (α := α) (σ0 := σ0) h0 (hR t).ne' hmu
    rw [v1] at w1
    rw [v2] at w2
    constructor
    · linear_combination (-a t) * hwr + cF r0 (exactChi r v mu t) α * w2
        - cG α r0 σ0 mu (exactChi r v mu t) * w1
    · linear_combination (-b t) * hwr + cFt α r0 σ0 mu (exactChi r v mu t) * w2
        - cGt α r0 σ0 (exactChi r v mu t) * w1
  rw [exactProp_eq]
  obtain ⟨x1, x2⟩ := scalar (fun t => (q t).x) (fun t => (w t).x) r.x v.x (by rw [hq0]) (by rw [hw0])
    (fun t ht => (hq t ht).x) (fun t ht => (hw t ht).x)
  obtain ⟨y1, y2⟩ := scalar (fun t => (q t).y) (fun t => (w t).y) r.y v.y (by rw [hq0]) (by rw [hw0])
    (fun t ht => (hq t ht).y) (fun t ht => (hw t ht).y)
  obtain ⟨z1, z2⟩ := scalar (fun t => (q t).z) (fun t => (w t).z) r.z v.z (by rw [hq0]) (by rw [hw0])
    (fun t ht => (hq t ht).z) (fun t ht => (hw t ht).z)
  refine Prod.ext ?_ ?_
  · ext
    · exact x1
    · exact y1
    · exact z1
  · ext
    · exact x2
    · exact y2
    · exact z2

/-- C24: composition. Propagating by `t1` and then by `t2` is propagating by `t1 + t2`. -/
theorem C24_composition (t1 t2 : ℝ) :
    exactProp (exactProp r v mu t1).1 (exactProp r v mu t1).2 mu t2 = exactProp r v mu (t1 + t2) := by
  have hr := pos_ne hmu hh
  have hcross : angular_momentum (exactProp r v mu t1).1 (exactProp r v mu t1).2 = angular_momentum r v :=
    step_h hr hmu (radOf_pos hmu hh).ne'
  obtain ⟨-, hsol⟩ := C21_solves_two_body hmu hh
  have := C21_unique (r := (exactProp r v mu t1).1) (v := (exactProp r v mu t1).2) hmu
    (by rw [hcross]; exact hh) isOpen_univ isPreconnected_univ (Set.mem_univ 0)
    (q := fun t => (exactProp r v mu (t1 + t)).1) (w := fun t => (exactProp r v mu (t1 + t)).2)
    (fun t _ => by
      obtain ⟨a, b, c⟩ := hsol (t1 + t) (Set.mem_univ _)
      have hk : HasDerivAt (fun t => t1 + t) 1 t := (hasDerivAt_id' t).const_add t1
      refine ⟨a, (b.scomp (k := fun t => t1 + t) hk).congr_deriv ?_,
        (c.scomp (k := fun t => t1 + t) hk).congr_deriv ?_⟩ <;>
      · ext <;> simp) (by simp) (by simp) t2 (Set.mem_univ _)
  exact this.symm

/-- C24: on an ellipse the motion repeats after the library's `orb_period`. -/
theorem C24_periodic (ha : 0 < semimajor_axis (V3.norm r) (V3.norm v) mu) (t : ℝ) :
    exactProp r v mu (t + orb_period (semimajor_axis (V3.norm r) (V3.norm v) mu) mu)
      = exactProp r v mu t := by
  set a := semimajor_axis (V3.norm r) (V3.norm v) mu with hadef
  have hα : alphaOf r v mu = 1 / a := rfl
  have hαpos : 0 < 1 / a := by positivity
  set q := Real.sqrt (1 / a) with hq
  have hq0 : 0 < q := Real.sqrt_pos.2 hαpos
  have hq2 : q ^ 2 = 1 / a := Real.sq_sqrt hαpos.le
  set T := 2 * Real.pi / q with hT
  have harg : ∀ χ, q * (χ + T) = q * χ + 2 * Real.pi := fun χ => by rw [hT]; field_simp
  have hU0 : ∀ χ, U 0 (χ + T) (1 / a) = U 0 χ (1 / a) := fun χ => by
    rw [← C07_ufunc0, ← C07_ufunc0]
    simp only [ufunc0, Nat.cast_zero, lt_real, decide_eq_true_eq, hαpos, if_true, sqrt_real, cos_real, ← hq,
      harg, Real.cos_add_two_pi]
  have hU1 : ∀ χ, U 1 (χ + T) (1 / a) = U 1 χ (1 / a) := fun χ => by
    rw [← C07_ufunc1, ← C07_ufunc1]
    simp only [ufunc1, Nat.cast_zero, lt_real, decide_eq_true_eq, hαpos, if_true, sqrt_real, sin_real, ← hq,
      harg, Real.sin_add_two_pi]
  have hU2 : ∀ χ, U 2 (χ + T) (1 / a) = U 2 χ (1 / a) := fun χ => by
    rw [U_of_rec 0 hαpos.ne', U_of_rec 0 hαpos.ne', hU0]; simp
  have hU3 : ∀ χ, U 3 (χ + T) (1 / a) = U 3 χ (1 / a) + T * a := fun χ => by
    rw [U_of_rec 1 hαpos.ne', U_of_rec 1 hαpos.ne', hU1]; simp; field_simp; ring
  have hP : Real.sqrt mu * orb_period a mu = T * a := by
    have hpi : 0 < Real.pi := Real.pi_pos
    simp only [orb_period, Nat.cast_ofNat, pi_real, sqrt_real]
    rw [show a ^ 3 / mu = (a / q / Real.sqrt mu) ^ 2 by
      rw [div_pow, div_pow, hq2, Real.sq_sqrt hmu.le]; field_simp]
    have hs : 0 < Real.sqrt mu := Real.sqrt_pos.2 hmu
    rw [Real.sqrt_sq (by positivity), hT]
    field_simp
  have hχ : exactChi r v mu (t + orb_period a mu) = exactChi r v mu t + T := by
    refine (exactChi_unique hmu hh (isRoot_iff.2 ?_)).symm
    have := kepU_exactChi hmu hh t
    rw [hα] at this ⊢
    simp only [kepU, hU1, hU2, hU3] at this ⊢
    rw [mul_add, hP, ← this]; ring
  rw [exactProp_eq, exactProp_eq, hχ, hα]
  simp only [cF, cG, cFt, cGt, radU, hU0, hU1, hU2]

/-- C23: each state returned by `kepler` is an exact two-body state of the same orbit, at the time shifted by
the residual of the root search over `√mu`; if the search stopped before its limit of 50 iterations the
shift is at most `1e-6/√mu`. -/
theorem C23_exact_up_to_time {ts : List ℝ} {rs vs : List (V3 ℝ)} (hk : kepler ts r v mu = some (rs, vs))
    {i : ℕ} {r' v' : V3 ℝ} (hr' : rs[i]? = some r') (hv' : vs[i]? = some v') :
    ∃ t χ t', ts[i]? = some t ∧
      solve_kepler_uni t (alphaOf r v mu) (V3.norm r) (sigma_fn r v mu) mu = some χ ∧
      t' = t + kepler_equ_uni χ (alphaOf r v mu) (V3.norm r) (sigma_fn r v mu) t mu / Real.sqrt mu ∧
      (r', v') = exactProp r v mu t' ∧
      ∀ k χp, uniRun t (alphaOf r v mu) (V3.norm r) (sigma_fn r v mu) mu defaultTol 50 = some (k, χ, χp) →
        k < 50 → |t' - t| ≤ (1 / 1000000) / Real.sqrt mu := by
  obtain ⟨t, χ, ht, hsolve, hstep⟩ := kepler_row hk hr' hv'
  have hs : 0 < Real.sqrt mu := Real.sqrt_pos.2 hmu
  set res := kepler_equ_uni χ (alphaOf r v mu) (V3.norm r) (sigma_fn r v mu) t mu with hres
  have hroot : IsRoot r v mu (t + res / Real.sqrt mu) χ := by
    rw [isRoot_iff, hres, kep_uni_eq]; field_simp; ring
  refine ⟨t, χ, _, ht, hsolve, rfl, ?_, ?_⟩
  · rw [exactProp, ← exactChi_unique hmu hh hroot, hstep]
  · intro k χp hrun hk50
    obtain ⟨k', -, hr, -, -, hstop⟩ := C13_uni t (alphaOf r v mu) (V3.norm r) (sigma_fn r v mu) mu defaultTol 50
    rw [hr] at hrun
    simp only [Option.some.injEq, Prod.mk.injEq] at hrun
    obtain ⟨rfl, hχ, -⟩ := hrun
    have hst := hstop hk50
    rw [hχ] at hst
    simp only [lt_real, abs_real, decide_eq_false_iff_not, not_lt, defaultTol, Nat.cast_one,
      Nat.cast_ofNat] at hst
    rw [add_sub_cancel_left, abs_div, abs_of_pos hs]
    exact div_le_div_of_nonneg_right hst hs.le

/-- C31: `generalized_anomaly` of the initial and the propagated state recovers the root `chi`. -/
theorem C31_generalized_anomaly {t χ : ℝ} {r' v' : V3 ℝ}
    (hχ : kepler_equ_uni χ (1 / semimajor_axis (V3.norm r) (V3.norm v) mu) (V3.norm r) (sigma_fn r v mu) t mu
      = 0) (hstep : keplerStep χ (1 / semimajor_axis (V3.norm r) (V3.norm v) mu) (V3.norm r)
        (sigma_fn r v mu) r v mu = (r', v')) :
    generalized_anomaly (1 / semimajor_axis (V3.norm r) (V3.norm v) mu) (sigma_fn r' v' mu)
      (sigma_fn r v mu) t mu = χ := by
  have hr := pos_ne hmu hh
  have h1 := step_sigma (v := v) (χ := χ) hr hmu (radOf_pos hmu hh).ne'
  change stepOf r v mu χ = (r', v') at hstep
  rw [hstep] at h1
  simp only at h1
  have h2 : kepU (alphaOf r v mu) (V3.norm r) (sigma_fn r v mu) χ = Real.sqrt mu * t := isRoot_iff.1 hχ
  rw [h1]
  change generalized_anomaly (alphaOf r v mu) _ _ t mu = χ
  simp only [generalized_anomaly, sqrt_real]
  simp only [kepU, sigOf, sigU] at h2 ⊢
  have e0 := U0_eq χ (alphaOf r v mu)
  have e1 := U1_eq χ (alphaOf r v mu)
  linear_combination (-alphaOf r v mu) * h2 + sigma_fn r v mu * e0 + e1

end

/-- The hypotheses hold for the circular orbit of radius 1, which has period `2π`. -/
example : exactProp ⟨1, 0, 0⟩ ⟨0, 1, 0⟩ 1 (2 * Real.pi) = (⟨1, 0, 0⟩, ⟨0, 1, 0⟩) := by
  have hh : angular_momentum (⟨1, 0, 0⟩ : V3 ℝ) ⟨0, 1, 0⟩ ≠ ⟨0, 0, 0⟩ := by
    simp [angular_momentum, cross]
  have ha : semimajor_axis (V3.norm (⟨1, 0, 0⟩ : V3 ℝ)) (V3.norm (⟨0, 1, 0⟩ : V3 ℝ)) 1 = 1 := by
    simp [semimajor_axis, V3.norm, dot]; norm_num
  have := C24_periodic one_pos hh (by rw [ha]; exact one_pos) 0
  rw [ha, exactProp_zero one_pos hh] at this
  simpa [orb_period] using this

end Adx
