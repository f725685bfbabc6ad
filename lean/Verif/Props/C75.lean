import Verif.Props.C66
import Verif.Props.C57b
import Mathlib.Analysis.SpecialFunctions.Pow.Deriv

/-! # C75: the gravitational parameter as a variable

How the motion depends on `mu`, expressed by the transition matrix `dxdx0`, and what forward-mode differentiation of `kepler`
with respect to `mu` returns. `mu` itself reaches the root search (_kepler.py:100), but `alpha.item()` and
`sigma0.item()`, which depend on `mu`, do not carry that dependence. -/

namespace Adx
open Spec V3 Filter Topology

/-- The unit of length multiplied by `L`, the unit of time kept. -/
noncomputable def lengthUnit (L : ℝ) (hL : 0 < L) : Units := ⟨L, 1, hL, one_pos⟩

theorem smul_smul_inv {L : ℝ} (hL : L ≠ 0) (a : V3 ℝ) : L • L⁻¹ • a = a := by
  ext <;> simp [← mul_assoc, mul_inv_cancel₀ hL]

section
variable {r v : V3 ℝ} {mu L : ℝ}

theorem lengthUnit_pos (hL : 0 < L) (a : V3 ℝ) : (lengthUnit L hL).pos (L⁻¹ • a) = a := smul_smul_inv hL.ne' a

theorem lengthUnit_vel (hL : 0 < L) (a : V3 ℝ) : (lengthUnit L hL).vel (L⁻¹ • a) = a := by
  ext <;> simp [Units.vel, lengthUnit, ← mul_assoc, mul_inv_cancel₀ hL.ne']

theorem lengthUnit_vel' (hL : 0 < L) (a : V3 ℝ) : (lengthUnit L hL).vel a = L • a := by
  ext <;> simp [Units.vel, lengthUnit]

/-- A change of `mu` by the factor `L³` is a change of the state by the factor `1/L`, the time unchanged. -/
theorem stepOf_mu (hL : 0 < L) (χ : ℝ) :
    stepOf r v (L ^ 3 * mu) χ
      = (L • (stepOf (L⁻¹ • r) (L⁻¹ • v) mu (χ / Real.sqrt L)).1, L • (stepOf (L⁻¹ • r) (L⁻¹ • v) mu (χ / Real.sqrt L)).2) := by
  have h := units_step (lengthUnit L hL) (L⁻¹ • r) (L⁻¹ • v) mu (χ / Real.sqrt L)
  have hs : Real.sqrt L ≠ 0 := (Real.sqrt_pos.2 hL).ne'
  rw [lengthUnit_pos, lengthUnit_vel, lengthUnit_vel'] at h
  have e1 : (lengthUnit L hL).grav mu = L ^ 3 * mu := by simp [Units.grav, lengthUnit]
  have e2 : Real.sqrt (lengthUnit L hL).L * (χ / Real.sqrt L) = χ := by
    show Real.sqrt L * _ = _
    field_simp
  rw [e1, e2] at h
  exact h

theorem flightTime_mu (hL : 0 < L) (χ : ℝ) :
    flightTime r v (L ^ 3 * mu) χ = flightTime (L⁻¹ • r) (L⁻¹ • v) mu (χ / Real.sqrt L) := by
  have hs : Real.sqrt L ≠ 0 := (Real.sqrt_pos.2 hL).ne'
  have hs2 := Real.sq_sqrt hL.le
  have e1 : (lengthUnit L hL).grav mu = L ^ 3 * mu := by simp [Units.grav, lengthUnit]
  have eL : (lengthUnit L hL).L = L := rfl
  have a1 := units_alpha (lengthUnit L hL) (L⁻¹ • r) (L⁻¹ • v) mu
  have a2 := units_sigma (lengthUnit L hL) (L⁻¹ • r) (L⁻¹ • v) mu
  have a3 := units_norm_pos (lengthUnit L hL) (L⁻¹ • r)
  rw [lengthUnit_pos, lengthUnit_vel, e1] at a1 a2
  rw [lengthUnit_pos] at a3
  have e2 : χ = Real.sqrt L * (χ / Real.sqrt L) := by field_simp
  have u1 := U_scale (lengthUnit L hL) 1 (χ / Real.sqrt L) (alphaOf (L⁻¹ • r) (L⁻¹ • v) mu)
  have u2 := U_scale (lengthUnit L hL) 2 (χ / Real.sqrt L) (alphaOf (L⁻¹ • r) (L⁻¹ • v) mu)
  have u3 := U_scale (lengthUnit L hL) 3 (χ / Real.sqrt L) (alphaOf (L⁻¹ • r) (L⁻¹ • v) mu)
  rw [eL, ← e2] at u1 u2 u3
  rw [eL] at a1 a2 a3
  have hsq : Real.sqrt (L ^ 3 * mu) = Real.sqrt L ^ 3 * Real.sqrt mu := by
    rw [Real.sqrt_mul (by positivity)]
    congr 1
    rw [show L ^ 3 = (Real.sqrt L ^ 3) ^ 2 by rw [← pow_mul, show 3 * 2 = 2 * 3 from rfl, pow_mul, hs2]]
    exact Real.sqrt_sq (by positivity)
  rw [flightTime, flightTime, kepU, kepU, a1, a2, a3, u1, u2, u3, hsq]
  rw [show L * V3.norm (L⁻¹ • r) * (Real.sqrt L ^ 1 * U 1 (χ / Real.sqrt L) (alphaOf (L⁻¹ • r) (L⁻¹ • v) mu))
      + Real.sqrt L * sigma_fn (L⁻¹ • r) (L⁻¹ • v) mu * (Real.sqrt L ^ 2 * U 2 (χ / Real.sqrt L) (alphaOf (L⁻¹ • r) (L⁻¹ • v) mu))
      + Real.sqrt L ^ 3 * U 3 (χ / Real.sqrt L) (alphaOf (L⁻¹ • r) (L⁻¹ • v) mu)
    = Real.sqrt L ^ 3 * (V3.norm (L⁻¹ • r) * U 1 (χ / Real.sqrt L) (alphaOf (L⁻¹ • r) (L⁻¹ • v) mu)
      + sigma_fn (L⁻¹ • r) (L⁻¹ • v) mu * U 2 (χ / Real.sqrt L) (alphaOf (L⁻¹ • r) (L⁻¹ • v) mu)
      + U 3 (χ / Real.sqrt L) (alphaOf (L⁻¹ • r) (L⁻¹ • v) mu)) by
      linear_combination (-(Real.sqrt L) * V3.norm (L⁻¹ • r) * U 1 (χ / Real.sqrt L) (alphaOf (L⁻¹ • r) (L⁻¹ • v) mu)) * hs2]
  rw [mul_div_mul_left _ _ (pow_ne_zero 3 hs)]

theorem exactProp_mu (hmu : 0 < mu) (hh : angular_momentum r v ≠ ⟨0, 0, 0⟩) (hL : 0 < L) (t : ℝ) :
    exactProp r v (L ^ 3 * mu) t
      = (L • (exactProp (L⁻¹ • r) (L⁻¹ • v) mu t).1, L • (exactProp (L⁻¹ • r) (L⁻¹ • v) mu t).2) := by
  have hh' : angular_momentum (L⁻¹ • r) (L⁻¹ • v) ≠ ⟨0, 0, 0⟩ := by
    intro h; apply hh
    have hL' := hL.ne'
    have hx := congrArg V3.x h
    have hy := congrArg V3.y h
    have hz := congrArg V3.z h
    simp only [angular_momentum, V3.cross, smul_x, smul_y, smul_z] at hx hy hz ⊢
    field_simp at hx hy hz
    ext
    · linarith
    · linarith
    · linarith
  have h := C57_exact (lengthUnit L hL) (r := L⁻¹ • r) (v := L⁻¹ • v) hmu hh' t
  rw [lengthUnit_pos, lengthUnit_vel, lengthUnit_vel'] at h
  have e1 : (lengthUnit L hL).grav mu = L ^ 3 * mu := by simp [Units.grav, lengthUnit]
  have e2 : (lengthUnit L hL).time t = t := by simp [Units.time, lengthUnit]
  rw [e1, e2] at h
  exact h

end

section
variable {mu : ℝ} {ρ ν : ℝ → V3 ℝ} {dρ dν : V3 ℝ} {m : ℝ → ℝ} {dm : ℝ}

/-- The cube root of the ratio of the gravitational parameters. -/
theorem exists_cbrt_curve (hmu : 0 < m 0) (hm : HasDerivAt m dm 0) :
    ∃ L : ℝ → ℝ, HasDerivAt L (dm / (3 * m 0)) 0 ∧ L 0 = 1 ∧ (∀ᶠ s in 𝓝 0, 0 < L s ∧ m s = L s ^ 3 * m 0) := by
  refine ⟨fun s => (m s / m 0) ^ (1 / 3 : ℝ), ?_, ?_, ?_⟩
  · have h1 : HasDerivAt (fun s => m s / m 0) (dm / m 0) 0 := hm.div_const _
    have h2 := h1.rpow_const (p := 1 / 3) (Or.inl (by rw [div_self hmu.ne']; exact one_ne_zero))
    refine h2.congr_deriv ?_
    rw [div_self hmu.ne', Real.one_rpow]
    field_simp
  · show (m 0 / m 0) ^ (1 / 3 : ℝ) = 1
    rw [div_self hmu.ne', Real.one_rpow]
  · filter_upwards [hm.continuousAt.eventually (lt_mem_nhds hmu)] with s hs
    have hq : 0 < m s / m 0 := div_pos hs hmu
    refine ⟨Real.rpow_pos_of_pos hq _, ?_⟩
    rw [← Real.rpow_natCast, ← Real.rpow_mul hq.le]
    norm_num
    field_simp

theorem HasDerivV.congr_ev {f g : ℝ → V3 ℝ} {f' : V3 ℝ} {s : ℝ} (hf : HasDerivV f f' s) (h : g =ᶠ[𝓝 s] f) : HasDerivV g f' s :=
  ⟨hf.x.congr_of_eventuallyEq (h.fun_comp V3.x), hf.y.congr_of_eventuallyEq (h.fun_comp V3.y),
    hf.z.congr_of_eventuallyEq (h.fun_comp V3.z)⟩

theorem inv_smul_deriv {L : ℝ → ℝ} {k : ℝ} (hL : HasDerivAt L k 0) (h1 : L 0 = 1) {f : ℝ → V3 ℝ} {f' : V3 ℝ}
    (hf : HasDerivV f f' 0) : HasDerivV (fun s => (L s)⁻¹ • f s) (f' - k • f 0) 0 := by
  have hi : HasDerivAt (fun s => (L s)⁻¹) (-k) 0 := by
    refine (hL.fun_inv (by rw [h1]; exact one_ne_zero)).congr_deriv ?_
    rw [h1]; ring
  refine (HasDerivV.smul hi hf).congr_deriv ?_
  ext <;> simp [h1] <;> ring

theorem variation_alg (A B : M3 ℝ) (x y p q P w : V3 ℝ) (k : ℝ) :
    k • P + (1 : ℝ) • (M3.mulVec A (x - k • p) + M3.mulVec B (y - k • q) + w)
      = M3.mulVec A x + M3.mulVec B y + k • (P - (M3.mulVec A p + M3.mulVec B q)) + w := by
  ext <;> simp [M3.mulVec, V3.dot] <;> ring

theorem variation_alg0 (A B : M3 ℝ) (x y p q P : V3 ℝ) (k : ℝ) :
    k • P + (1 : ℝ) • (M3.mulVec A (x - k • p) + M3.mulVec B (y - k • q))
      = M3.mulVec A x + M3.mulVec B y + k • (P - (M3.mulVec A p + M3.mulVec B q)) := by
  ext <;> simp [M3.mulVec, V3.dot] <;> ring

variable (hmu : 0 < m 0) (hh : angular_momentum (ρ 0) (ν 0) ≠ ⟨0, 0, 0⟩) (hρ : HasDerivV ρ dρ 0) (hν : HasDerivV ν dν 0)
  (hm : HasDerivAt m dm 0)
include hmu hh hρ hν hm

/-- C75: how the motion over a fixed time depends on the initial state and on `mu`. The dependence on `mu` is read off the
transition matrix: `∂x/∂mu = (x - Φ x₀) / (3 mu)`. -/
theorem C75_sensitivity (t : ℝ) :
    let P := exactProp (ρ 0) (ν 0) (m 0) t
    let Φ := dxdx0 P.1 P.2 (ρ 0) (ν 0) t (m 0)
    HasDerivV (fun s => (exactProp (ρ s) (ν s) (m s) t).1)
      (M3.mulVec Φ.rr dρ + M3.mulVec Φ.rv dν
        + (dm / (3 * m 0)) • (P.1 - (M3.mulVec Φ.rr (ρ 0) + M3.mulVec Φ.rv (ν 0)))) 0 ∧
    HasDerivV (fun s => (exactProp (ρ s) (ν s) (m s) t).2)
      (M3.mulVec Φ.vr dρ + M3.mulVec Φ.vv dν
        + (dm / (3 * m 0)) • (P.2 - (M3.mulVec Φ.vr (ρ 0) + M3.mulVec Φ.vv (ν 0)))) 0 := by
  intro P Φ
  obtain ⟨L, hL, hL0, hLm⟩ := exists_cbrt_curve hmu hm
  set k := dm / (3 * m 0)
  have e0 : ∀ a : V3 ℝ, (L 0)⁻¹ • a = a := fun a => by rw [hL0]; ext <;> simp
  have hρ' : DiffV ρ 0 := ⟨hρ.x.differentiableAt, hρ.y.differentiableAt, hρ.z.differentiableAt⟩
  have hν' : DiffV ν 0 := ⟨hν.x.differentiableAt, hν.y.differentiableAt, hν.z.differentiableAt⟩
  have hev : ∀ᶠ s in 𝓝 (0 : ℝ), exactProp (ρ s) (ν s) (m s) t
      = (L s • (exactProp ((L s)⁻¹ • ρ s) ((L s)⁻¹ • ν s) (m 0) t).1,
        L s • (exactProp ((L s)⁻¹ • ρ s) ((L s)⁻¹ • ν s) (m 0) t).2) := by
    filter_upwards [hLm, eventually_cross_ne hh hρ' hν'] with s h1 h2
    rw [h1.2]
    exact exactProp_mu hmu h2 h1.1 t
  obtain ⟨c1, c2⟩ := C29_curve (t := t) (s0 := 0) hmu (by rw [e0, e0]; exact hh) (inv_smul_deriv hL hL0 hρ) (inv_smul_deriv hL hL0 hν)
  simp only [e0] at c1 c2
  have d1 := (HasDerivV.smul hL c1).congr_ev (hev.mono fun s h => congrArg Prod.fst h)
  have d2 := (HasDerivV.smul hL c2).congr_ev (hev.mono fun s h => congrArg Prod.snd h)
  refine ⟨d1.congr_deriv ?_, d2.congr_deriv ?_⟩
  · rw [e0, e0, hL0]; exact variation_alg0 ..
  · rw [e0, e0, hL0]; exact variation_alg0 ..

/-- As `step_curve` of C66, with `mu` moving as well. -/
theorem step_curve_mu {c : ℝ → ℝ} {p δ : ℝ} (hc : HasDerivAt c p 0)
    (hδ : HasDerivAt (fun s => flightTime (ρ s) (ν s) (m s) (c s)) δ 0) :
    let P := stepOf (ρ 0) (ν 0) (m 0) (c 0)
    let Φ := dxdx0 P.1 P.2 (ρ 0) (ν 0) (flightTime (ρ 0) (ν 0) (m 0) (c 0)) (m 0)
    P = exactProp (ρ 0) (ν 0) (m 0) (flightTime (ρ 0) (ν 0) (m 0) (c 0)) ∧
    HasDerivV (fun s => (stepOf (ρ s) (ν s) (m s) (c s)).1)
      (M3.mulVec Φ.rr dρ + M3.mulVec Φ.rv dν
        + (dm / (3 * m 0)) • (P.1 - (M3.mulVec Φ.rr (ρ 0) + M3.mulVec Φ.rv (ν 0))) + δ • P.2) 0 ∧
    HasDerivV (fun s => (stepOf (ρ s) (ν s) (m s) (c s)).2)
      (M3.mulVec Φ.vr dρ + M3.mulVec Φ.vv dν
        + (dm / (3 * m 0)) • (P.2 - (M3.mulVec Φ.vr (ρ 0) + M3.mulVec Φ.vv (ν 0))) + δ • newtonAcc (m 0) P.1) 0 := by
  intro P Φ
  obtain ⟨L, hL, hL0, hLm⟩ := exists_cbrt_curve hmu hm
  set k := dm / (3 * m 0)
  have e0 : ∀ a : V3 ℝ, (L 0)⁻¹ • a = a := fun a => by rw [hL0]; ext <;> simp
  have hev1 : ∀ᶠ s in 𝓝 (0 : ℝ), stepOf (ρ s) (ν s) (m s) (c s)
      = (L s • (stepOf ((L s)⁻¹ • ρ s) ((L s)⁻¹ • ν s) (m 0) (c s / Real.sqrt (L s))).1,
        L s • (stepOf ((L s)⁻¹ • ρ s) ((L s)⁻¹ • ν s) (m 0) (c s / Real.sqrt (L s))).2) := by
    filter_upwards [hLm] with s h1
    rw [h1.2]
    exact stepOf_mu h1.1 _
  have hev2 : ∀ᶠ s in 𝓝 (0 : ℝ), flightTime ((L s)⁻¹ • ρ s) ((L s)⁻¹ • ν s) (m 0) (c s / Real.sqrt (L s))
      = flightTime (ρ s) (ν s) (m s) (c s) := by
    filter_upwards [hLm] with s h1
    rw [h1.2]
    exact (flightTime_mu h1.1 _).symm
  have hsq := (hL.sqrt (by rw [hL0]; exact one_ne_zero))
  have hc' := hc.fun_div hsq (by rw [hL0, Real.sqrt_one]; exact one_ne_zero)
  have s0 : c 0 / Real.sqrt (L 0) = c 0 := by rw [hL0, Real.sqrt_one, div_one]
  obtain ⟨q0, q1, q2⟩ := step_curve hmu (by rw [e0, e0]; exact hh) (inv_smul_deriv hL hL0 hρ) (inv_smul_deriv hL hL0 hν) hc'
    (hδ.congr_of_eventuallyEq hev2)
  simp only [e0, s0] at q0 q1 q2
  have d1 := (HasDerivV.smul hL q1).congr_ev (hev1.mono fun s h => congrArg Prod.fst h)
  have d2 := (HasDerivV.smul hL q2).congr_ev (hev1.mono fun s h => congrArg Prod.snd h)
  refine ⟨q0, d1.congr_deriv ?_, d2.congr_deriv ?_⟩
  · rw [e0, e0, s0, hL0]; exact variation_alg ..
  · rw [e0, e0, s0, hL0]; exact variation_alg ..

end

/-! ### `kepler` -/

section
variable {rv vv : V3 (Dual ℝ)} {mu : Dual ℝ}

/-- The line through the value of a traced number in the direction of its tangent. -/
noncomputable def numLine (d : Dual ℝ) (s : ℝ) : ℝ := d.val + Dual.dot d * s

theorem numLine_zero (d : Dual ℝ) : numLine d 0 = d.val := by simp [numLine]

theorem numLine_tracks (d : Dual ℝ) : Tracks (numLine d) 0 d := Tracks.line d

/-- The root of `kepler`, traced through the time and through `mu`. -/
noncomputable abbrev tracedRoot (rv vv : V3 (Dual ℝ)) (mu t : Dual ℝ) : Dual ℝ :=
  chiOf t (cst (alphaOf rv.vals vv.vals mu.val)) (cst (V3.norm rv.vals)) (cst (sigma_fn rv.vals vv.vals mu.val)) mu

/-- The traced row of `kepler`. -/
theorem keplerRow_traced (t : Dual ℝ) :
    keplerRow rv vv mu t
      = keplerStep (tracedRoot rv vv mu t) (ℓ 1 / semimajor_axis (V3.norm rv) (V3.norm vv) mu) (V3.norm rv) (sigma_fn rv vv mu)
          rv vv mu := by
  rw [tracedRoot, ← alphaOf_real]
  rfl

/-- The rate of change of `alpha`. -/
theorem alphaOf_deriv_mu {ρ ν : ℝ → V3 ℝ} {dρ dν : V3 ℝ} {m : ℝ → ℝ} {dm : ℝ} (hmu : 0 < m 0)
    (hh : angular_momentum (ρ 0) (ν 0) ≠ ⟨0, 0, 0⟩) (hρ : HasDerivV ρ dρ 0) (hν : HasDerivV ν dν 0) (hm : HasDerivAt m dm 0) :
    HasDerivAt (fun s => alphaOf (ρ s) (ν s) (m s))
      (-(2 * dot (ρ 0) dρ / V3.norm (ρ 0) ^ 3) - 2 * dot (ν 0) dν / m 0 + dot (ν 0) (ν 0) * dm / m 0 ^ 2) 0 := by
  have h0 : V3.norm (ρ 0) ≠ 0 := (state_invariant_pos hmu hh).1.ne'
  simp only [alphaOf, inv_semimajor_axis, invA]
  have h1 := (hasDerivAt_const (0 : ℝ) (2 : ℝ)).fun_div (hρ.norm h0) h0
  have h2 := (hν.dot hν).fun_div hm hmu.ne'
  refine (h1.fun_sub h2).congr_deriv ?_
  have hm0 := hmu.ne'
  rw [dot_comm dν]
  field_simp; ring

theorem flightTime_diff {ρ ν : ℝ → V3 ℝ} {dρ dν : V3 ℝ} {m : ℝ → ℝ} {dm : ℝ} (hmu : 0 < m 0)
    (hh : angular_momentum (ρ 0) (ν 0) ≠ ⟨0, 0, 0⟩) (hρ : HasDerivV ρ dρ 0) (hν : HasDerivV ν dν 0) (hm : HasDerivAt m dm 0)
    {c : ℝ → ℝ} {p : ℝ} (hc : HasDerivAt c p 0) :
    DifferentiableAt ℝ (fun s => flightTime (ρ s) (ν s) (m s) (c s)) 0 := by
  have h0 : V3.norm (ρ 0) ≠ 0 := (state_invariant_pos hmu hh).1.ne'
  have hs : Real.sqrt (m 0) ≠ 0 := (Real.sqrt_pos.2 hmu).ne'
  have hsq := (hm.sqrt hmu.ne').differentiableAt
  have hS : DifferentiableAt ℝ (fun s => sigma_fn (ρ s) (ν s) (m s)) 0 := by
    simp only [sigma_fn, sqrt_real]
    exact differentiableAt_div (hρ.dot hν).differentiableAt hsq hs
  exact differentiableAt_div (differentiableAt_kepU (alphaOf_deriv_mu hmu hh hρ hν hm).differentiableAt
    (hρ.norm h0).differentiableAt hS hc.differentiableAt) hsq hs

/-- C75: what forward-mode differentiation of `kepler` returns when time, state and `mu` are all traced: the derivative of the
motion over the fixed time `T` reached, plus velocity and acceleration times the rate `δ` of the time of flight along the
traced root. -/
theorem C75_kepler_tangent (hmu : 0 < mu.val) (hh : angular_momentum rv.vals vv.vals ≠ ⟨0, 0, 0⟩)
    (ha : alphaOf rv.vals vv.vals mu.val = 0 → -(2 * dot rv.vals (dots rv) / V3.norm rv.vals ^ 3)
      - 2 * dot vv.vals (dots vv) / mu.val + dot vv.vals vv.vals * Dual.dot mu / mu.val ^ 2 = 0) (t : Dual ℝ) :
    let d := tracedRoot rv vv mu t
    let T := flightTime rv.vals vv.vals mu.val d.val
    ∃ R V δ D1 D2, kepler [t] rv vv mu = some ([R], [V]) ∧
      kepler [t.val] rv.vals vv.vals mu.val = some ([R.vals], [V.vals]) ∧
      (R.vals, V.vals) = exactProp rv.vals vv.vals mu.val T ∧
      HasDerivAt (fun s => flightTime (lineOf rv s) (lineOf vv s) (numLine mu s) (numLine d s)) δ 0 ∧
      HasDerivV (fun s => (stepOf (lineOf rv s) (lineOf vv s) (numLine mu s) (numLine d s)).1) (dots R) 0 ∧
      HasDerivV (fun s => (stepOf (lineOf rv s) (lineOf vv s) (numLine mu s) (numLine d s)).2) (dots V) 0 ∧
      HasDerivV (fun s => (exactProp (lineOf rv s) (lineOf vv s) (numLine mu s) T).1) D1 0 ∧
      HasDerivV (fun s => (exactProp (lineOf rv s) (lineOf vv s) (numLine mu s) T).2) D2 0 ∧
      dots R = D1 + δ • V.vals ∧ dots V = D2 + δ • newtonAcc mu.val R.vals ∧
      (dots V = D2 ↔ δ = 0) := by
  intro d T
  have hh0 : angular_momentum (lineOf rv 0) (lineOf vv 0) ≠ ⟨0, 0, 0⟩ := by rw [lineOf_zero, lineOf_zero]; exact hh
  obtain ⟨hr, hv⟩ : lineOf rv 0 ≠ ⟨0, 0, 0⟩ ∧ lineOf vv 0 ≠ ⟨0, 0, 0⟩ := by
    constructor <;> intro h <;> rw [h] at hh0 <;> apply hh0 <;> simp [angular_momentum, V3.cross]
  have hmu0 : 0 < numLine mu 0 := by rw [numLine_zero]; exact hmu
  have hs := Real.sqrt_pos.2 hmu0
  have hn : V3.norm (lineOf rv 0) ≠ 0 := ((norm_pos _).2 hr).ne'
  have hc := numLine_tracks d
  have tr := lineOf_tracks rv
  have tv := lineOf_tracks vv
  have tm := numLine_tracks mu
  have tσ : Tracks (fun s => sigma_fn (lineOf rv s) (lineOf vv s) (numLine mu s)) 0 (sigma_fn rv vv mu) :=
    (tr.dot tv).div (tm.sqrt hmu0) hs.ne'
  have hrad : dchi (numLine d 0) (alphaOf (lineOf rv 0) (lineOf vv 0) (numLine mu 0)) (V3.norm (lineOf rv 0))
      (sigma_fn (lineOf rv 0) (lineOf vv 0) (numLine mu 0)) ≠ 0 := by
    rw [dchi_eq]; exact (radOf_pos hmu0 hh0).ne'
  obtain ⟨u0, u1, u2⟩ : Tracks (fun s => ufunc0 (numLine d s) (alphaOf (lineOf rv s) (lineOf vv s) (numLine mu s))) 0
        (ufunc0 d (ℓ 1 / semimajor_axis (V3.norm rv) (V3.norm vv) mu)) ∧
      Tracks (fun s => ufunc1 (numLine d s) (alphaOf (lineOf rv s) (lineOf vv s) (numLine mu s))) 0
        (ufunc1 d (ℓ 1 / semimajor_axis (V3.norm rv) (V3.norm vv) mu)) ∧
      Tracks (fun s => ufunc2 (numLine d s) (alphaOf (lineOf rv s) (lineOf vv s) (numLine mu s))) 0
        (ufunc2 d (ℓ 1 / semimajor_axis (V3.norm rv) (V3.norm vv) mu)) := by
    by_cases hal : alphaOf (lineOf rv 0) (lineOf vv 0) (numLine mu 0) = 0
    · refine ufunc_flat hc ?_ hal ?_
      · refine (alphaOf_deriv_mu hmu0 hh0 (lineOf_deriv rv) (lineOf_deriv vv) tm.deriv).congr_deriv ?_
        rw [lineOf_zero, lineOf_zero, numLine_zero] at hal ⊢
        exact ha hal
      · rw [lineOf_zero, lineOf_zero, numLine_zero, ← alphaOf_real] at hal
        exact hal
    · have hal2 : 2 / V3.norm (lineOf rv 0) - V3.norm (lineOf vv 0) ^ 2 / numLine mu 0 ≠ 0 := by
        simpa [alphaOf, semimajor_axis] using hal
      have hsm : semimajor_axis (V3.norm (lineOf rv 0)) (V3.norm (lineOf vv 0)) (numLine mu 0) ≠ 0 := by
        intro h; apply hal; rw [alphaOf, h, div_zero]
      have tα : Tracks (fun s => alphaOf (lineOf rv s) (lineOf vv s) (numLine mu s)) 0
          (ℓ 1 / semimajor_axis (V3.norm rv) (V3.norm vv) mu) :=
        ((Tracks.nat 1).div (C62_semimajor_axis (tr.norm hr) (tv.norm hv) tm hn hmu0.ne' hal2) hsm).congr
          (.of_eq (by funext x; rw [← alphaOf_real]))
      obtain ⟨u0, u1, u2, -⟩ := C62_ufunc hc tα hal
      exact ⟨u0, u1, u2⟩
  have hradt := C62_equ_of_orb_uvi u0 u1 u2 (tr.norm hr) tσ
  obtain ⟨hF, hG, hFt, hGt⟩ := C62_lagrange u1 u2 tσ hradt (tr.norm hr) tm hrad hn hmu0
  have tR := (TracksV.smul hF tr).add (TracksV.smul hG tv)
  have tV := (TracksV.smul hFt tr).add (TracksV.smul hGt tv)
  have hdiff := flightTime_diff hmu0 hh0 (lineOf_deriv rv) (lineOf_deriv vv) tm.deriv hc.deriv
  obtain ⟨e0, e1, e2⟩ := step_curve_mu hmu0 hh0 (lineOf_deriv rv) (lineOf_deriv vv) tm.deriv hc.deriv hdiff.hasDerivAt
  obtain ⟨x1, x2⟩ := C75_sensitivity hmu0 hh0 (lineOf_deriv rv) (lineOf_deriv vv) tm.deriv T
  have hk := kepler_eq_map [t] rv vv mu
  simp only [List.map_cons, List.map_nil, keplerRow_traced] at hk
  have hkv := C61_kepler [t] rv vv mu
  rw [hk, Option.map_some] at hkv
  simp only [numLine_zero, lineOf_zero] at e0 e1 e2 x1 x2
  have e0' : stepOf rv.vals vv.vals mu.val d.val = exactProp rv.vals vv.vals mu.val T := e0
  rw [← e0'] at x1 x2
  have d1 := dots_of_tracks tR e1
  have d2 := dots_of_tracks tV e2
  have hvals := keplerStep_vals d (ℓ 1 / semimajor_axis (V3.norm rv) (V3.norm vv) mu) (V3.norm rv)
    (sigma_fn rv vv mu) mu rv vv
  have hvals' := hvals.trans (show _ = stepOf rv.vals vv.vals mu.val d.val by rw [stepOf, ← alphaOf_real]; rfl)
  rw [Prod.ext_iff] at hvals'
  obtain ⟨v1, v2⟩ := hvals'
  simp only at v1 v2
  refine ⟨_, _, _, _, _, hk, hkv.symm, ?_,
    hdiff.hasDerivAt, ⟨tR.x.deriv, tR.y.deriv, tR.z.deriv⟩, ⟨tV.x.deriv, tV.y.deriv, tV.z.deriv⟩, x1, x2, ?_, ?_, ?_⟩
  · rw [v1, v2]; exact e0
  · rw [v2]; exact d1
  · rw [v1]; exact d2
  · have hR : (stepOf rv.vals vv.vals mu.val d.val).1 ≠ ⟨0, 0, 0⟩ := by
      rw [e0']; exact exactProp_ne hmu hh T
    exact (iff_of_eq (congrArg (· = _) d2)).trans (add_newtonAcc hmu hR)

/-- The traced root when the start is accepted, `mu` alone traced. -/
theorem chiOf_start_mu {al r0 s0 m t : ℝ} (h : |kepler_equ_uni (uniStart t al m) al r0 s0 t m| ≤ defaultTol) :
    chiOf (cst t) (cst al) (cst r0) (cst s0) (⟨m, some 1⟩ : Dual ℝ) = uniStart (cst t) (cst al) (⟨m, some 1⟩ : Dual ℝ) := by
  obtain ⟨k, hk, hd, h1, -⟩ := uni_dual (cst t) (cst al) (cst r0) (cst s0) (⟨m, some 1⟩ : Dual ℝ) defaultTol 50
  have hk0 : k = 0 := by
    rcases k with _ | k
    · rfl
    · exact absurd (h1 0 (by omega)) (not_lt.2 h)
  subst hk0
  have hd' : solve_kepler_uni (cst t) (cst al) (cst r0) (cst s0) (⟨m, some 1⟩ : Dual ℝ)
      = some (uniStart (cst t) (cst al) (⟨m, some 1⟩ : Dual ℝ)) := hd
  rw [solve_eq_chiOf] at hd'
  exact Option.some.inj hd'

/-- C75, refuted in numbers: on the unit circle with `mu = 1` the state found at time `t` is exact, but the derivative of the
position with respect to `mu` comes out as `(1 - cos t - t sin t, t cos t - sin t, 0)`, a drift along the orbit of `t`,
where the motion drifts by `2 t`. -/
theorem C75_circle_refuted (t : ℝ) :
    ∃ R V, kepler [cst t] (cstV ⟨1, 0, 0⟩) (cstV ⟨0, 1, 0⟩) (⟨1, some 1⟩ : Dual ℝ) = some ([R], [V]) ∧
      R.vals = ⟨Real.cos t, Real.sin t, 0⟩ ∧ (R.vals, V.vals) = exactProp ⟨1, 0, 0⟩ ⟨0, 1, 0⟩ 1 t ∧
      dots R = ⟨1 - Real.cos t - t * Real.sin t, t * Real.cos t - Real.sin t, 0⟩ ∧
      HasDerivV (fun s => (exactProp ⟨1, 0, 0⟩ ⟨0, 1, 0⟩ (1 + s) t).1)
        ⟨1 - Real.cos t - 2 * t * Real.sin t + Real.sin t ^ 2,
          2 * t * Real.cos t - Real.sin t - Real.sin t * Real.cos t, 0⟩ 0 := by
  have hn1 : V3.norm (⟨1, 0, 0⟩ : V3 ℝ) = 1 := by simp [V3.norm, V3.dot]
  have hn2 : V3.norm (⟨0, 1, 0⟩ : V3 ℝ) = 1 := by simp [V3.norm, V3.dot]
  have hal : alphaOf (⟨1, 0, 0⟩ : V3 ℝ) ⟨0, 1, 0⟩ 1 = 1 := by
    rw [alphaOf, hn1, hn2]; simp only [semimajor_axis]; norm_num
  have hsg : ∀ m, sigma_fn (⟨1, 0, 0⟩ : V3 ℝ) ⟨0, 1, 0⟩ m = 0 := fun m => by simp [sigma_fn, V3.dot]
  have hh : angular_momentum (⟨1, 0, 0⟩ : V3 ℝ) ⟨0, 1, 0⟩ ≠ ⟨0, 0, 0⟩ := by
    intro h; have := congrArg V3.z h; norm_num [angular_momentum, V3.cross] at this
  obtain ⟨c0, c1, c2, c3, c4, c5⟩ := U_one t
  have hkep : kepU 1 1 0 t = t := by rw [kepU, c1, c2, c3]; ring
  set mu : Dual ℝ := ⟨1, some 1⟩ with hmu
  have hroot : tracedRoot (cstV ⟨1, 0, 0⟩) (cstV ⟨0, 1, 0⟩) mu (cst t) = uniStart (cst t) (cst 1) mu := by
    have h := chiOf_start_mu (t := t) (al := 1) (r0 := 1) (s0 := 0) (m := 1) (by
      have e : uniStart t 1 1 = t := by simp [uniStart]
      rw [e, kep_uni_eq, hkep]; simp [defaultTol])
    have e : tracedRoot (cstV ⟨1, 0, 0⟩) (cstV ⟨0, 1, 0⟩) mu (cst t)
        = chiOf (cst t) (cst (alphaOf (⟨1, 0, 0⟩ : V3 ℝ) ⟨0, 1, 0⟩ 1)) (cst (V3.norm (⟨1, 0, 0⟩ : V3 ℝ)))
          (cst (sigma_fn (⟨1, 0, 0⟩ : V3 ℝ) ⟨0, 1, 0⟩ 1)) mu := rfl
    rw [e, hal, hn1, hsg]
    exact h
  have hval : (uniStart (cst t) (cst 1) mu).val = t := by
    show Real.sqrt 1 * |(1 : ℝ)| * t = t
    simp
  have hdot : Dual.dot (uniStart (cst t) (cst 1) mu) = t / 2 := by
    have hs : Tracks (fun s => Real.sqrt (numLine mu s)) 0 (JFun.sqrt mu) :=
      (numLine_tracks mu).sqrt (by rw [numLine_zero]; exact one_pos)
    have h1 : Tracks (fun s => Real.sqrt (numLine mu s) * |(1 : ℝ)| * t) 0 (uniStart (cst t) (cst 1) mu) :=
      (hs.mul ((Tracks.const 1).abs one_ne_zero)).mul (Tracks.const t)
    have h2 : HasDerivAt (fun s : ℝ => Real.sqrt (1 + 1 * s) * |(1 : ℝ)| * t) (t / 2) 0 := by
      have h3 : HasDerivAt (fun s : ℝ => 1 + 1 * s) 1 0 := by
        simpa using ((hasDerivAt_id (0 : ℝ)).const_mul 1).const_add 1
      refine (((h3.sqrt (by norm_num)).mul_const _).mul_const t).congr_deriv ?_
      simp; ring
    exact h1.deriv.unique h2
  have hfl : flightTime (⟨1, 0, 0⟩ : V3 ℝ) ⟨0, 1, 0⟩ 1 t = t := by
    rw [flightTime, hal, hn1, hsg, hkep]; simp
  have hlr : ∀ a s, lineOf (cstV a) s = a := fun a s => by ext <;> simp [lineOf, dots, Dual.dot] <;> rfl
  have hnm : ∀ s, numLine mu s = 1 + s := fun s => by
    show (1 : ℝ) + 1 * s = 1 + s
    ring
  obtain ⟨R, V, δ, D1, D2, h1, -, h3, h4, h5, -, h6, -, h7, -, -⟩ :=
    C75_kepler_tangent (rv := cstV ⟨1, 0, 0⟩) (vv := cstV ⟨0, 1, 0⟩) (mu := mu) one_pos hh
      (fun h => absurd (hal.symm.trans h) one_ne_zero) (cst t)
  have vr : (cstV ⟨1, 0, 0⟩ : V3 (Dual ℝ)).vals = ⟨1, 0, 0⟩ := rfl
  have vv : (cstV ⟨0, 1, 0⟩ : V3 (Dual ℝ)).vals = ⟨0, 1, 0⟩ := rfl
  have vm : mu.val = 1 := rfl
  have hnl : ∀ s, numLine (uniStart (cst t) (cst 1) mu) s = t + t / 2 * s := fun s => by
    rw [numLine, hval, hdot]
  simp only [hroot, vr, vv, vm, hval, hfl, hlr, hnm, hnl] at h3 h4 h5 h6
  have hRV : (R.vals, V.vals) = (⟨Real.cos t, Real.sin t, 0⟩, ⟨-Real.sin t, Real.cos t, 0⟩) := by
    have hst := stepOf_eq_exactProp (mu := 1) one_pos hh t
    rw [← flightTime, hfl] at hst
    rw [h3, ← hst, stepOf, keplerStep_eq, hal, hn1, hsg]
    have hrad : radU 1 1 0 t = 1 := by rw [radU, c0, c1, c2]; ring
    simp only [cF, cG, cFt, cGt, hrad, c1, c2, Real.sqrt_one]
    refine Prod.ext ?_ ?_ <;> ext <;> simp
  obtain ⟨eR, eV⟩ := Prod.mk.inj hRV
  -- the moving quantities
  have hm : HasDerivAt (fun s : ℝ => 1 + s) 1 0 := (hasDerivAt_id (0 : ℝ)).const_add 1
  have hA : HasDerivAt (fun s : ℝ => alphaOf (⟨1, 0, 0⟩ : V3 ℝ) ⟨0, 1, 0⟩ (1 + s)) 1 0 := by
    refine (alphaOf_deriv_mu (ρ := fun _ => ⟨1, 0, 0⟩) (ν := fun _ => ⟨0, 1, 0⟩) (by norm_num) hh (hasDerivV_const _ _)
      (hasDerivV_const _ _) hm).congr_deriv ?_
    norm_num [V3.dot]
  have hX : HasDerivAt (fun s : ℝ => t + t / 2 * s) (t / 2) 0 := by
    simpa using ((hasDerivAt_id (0 : ℝ)).const_mul (t / 2)).const_add t
  have hsq : HasDerivAt (fun s : ℝ => Real.sqrt (1 + s)) (1 / 2) 0 := by
    refine (hm.sqrt (by norm_num)).congr_deriv ?_
    simp
  have hU1 := hasDerivAt_U_curve 0 hX hA
  have hU2 := hasDerivAt_U_curve 1 hX hA
  have hU3 := hasDerivAt_U_curve 2 hX hA
  have hs1 : Real.sqrt (1 + 0) ≠ 0 := by simp
  have hδ : δ = Real.sin t - t := by
    have k1 := (hU1.fun_add hU3).fun_div hsq hs1
    refine (h4.unique (k1.congr_of_eventuallyEq (.of_eq ?_))).trans ?_
    · funext s
      simp only [flightTime, kepU, hn1, hsg]
      ring
    · simp only [add_zero, mul_zero, hal, c0, c1, c2, c3, c4, c5, Real.sqrt_one]
      ring
  have hd : dots R = ⟨1 - Real.cos t - t * Real.sin t, t * Real.cos t - Real.sin t, 0⟩ := by
    have kF := hU2.const_sub 1
    have kG := hU1.fun_div hsq hs1
    have key := (HasDerivV.smul kF (hasDerivV_const (⟨1, 0, 0⟩ : V3 ℝ) 0)).add
      (HasDerivV.smul kG (hasDerivV_const (⟨0, 1, 0⟩ : V3 ℝ) 0))
    have h5' := h5
    simp only [stepOf, keplerStep_eq, cF, cG, hn1, hsg, div_one, one_mul, zero_mul, add_zero] at h5'
    rw [h5'.unique key]
    simp only [add_zero, mul_zero, hal, c0, c1, c2, c3, c4, Real.sqrt_one]
    ext <;> simp <;> ring
  refine ⟨R, V, h1, eR, h3, hd, h6.congr_deriv ?_⟩
  rw [hd, hδ, eV] at h7
  have hx := congrArg V3.x h7
  have hy := congrArg V3.y h7
  have hz := congrArg V3.z h7
  simp only [add_x, add_y, add_z, smul_x, smul_y, smul_z] at hx hy hz
  ext
  · show D1.x = _; linear_combination -hx
  · show D1.y = _; linear_combination -hy
  · show D1.z = _; linear_combination -hz

/-- After one turn: `(0, 2π, 0)` instead of `(0, 4π, 0)`. -/
example : ∃ R V, kepler [cst (2 * Real.pi)] (cstV ⟨1, 0, 0⟩) (cstV ⟨0, 1, 0⟩) (⟨1, some 1⟩ : Dual ℝ) = some ([R], [V]) ∧
    dots R = ⟨0, 2 * Real.pi, 0⟩ ∧
    HasDerivV (fun s => (exactProp ⟨1, 0, 0⟩ ⟨0, 1, 0⟩ (1 + s) (2 * Real.pi)).1) ⟨0, 4 * Real.pi, 0⟩ 0 := by
  obtain ⟨R, V, h1, -, -, h4, h5⟩ := C75_circle_refuted (2 * Real.pi)
  refine ⟨R, V, h1, ?_, h5.congr_deriv ?_⟩
  · rw [h4]; ext <;> simp
  · ext <;> simp; ring

end

end Adx
