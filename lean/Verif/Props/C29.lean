import Verif.Lemmas.Stm
import Verif.Spec.Phase
import Mathlib.Analysis.Calculus.FDeriv.Pi
import Mathlib.Analysis.Normed.Module.FiniteDimension
import Mathlib.LinearAlgebra.Matrix.ToLin

/-! # C29: `dxdx0` is the Jacobian of exact Kepler propagation -/

namespace Adx
open Spec V3 Filter Topology

/-- The auxiliary values `dxdx0` computes at an exactly propagated state. -/
theorem dxdx0_eq {r v : V3 ℝ} {mu : ℝ} (hmu : 0 < mu) (hh : cross r v ≠ ⟨0, 0, 0⟩) (t : ℝ) :
    dxdx0 (exactProp r v mu t).1 (exactProp r v mu t).2 r v t mu =
      let χ := exactChi r v mu t
      let α := alphaOf r v mu
      let σ0 := sigma_fn r v mu
      let P := exactProp r v mu t
      let C := (3 * U 5 χ α - χ * U 4 χ α - Real.sqrt mu * t * U 2 χ α) / Real.sqrt mu
      ⟨prpr0 P.1 P.2 r v (cF (V3.norm r) χ α) C mu,
       prpv0 P.1 P.2 r v (cF (V3.norm r) χ α) (cG α (V3.norm r) σ0 mu χ) C mu,
       pvpr0 P.1 P.2 r v (cFt α (V3.norm r) σ0 mu χ) C mu,
       pvpv0 P.1 P.2 r v (cF (V3.norm r) χ α) (cGt α (V3.norm r) σ0 χ) C mu⟩ := by
  have hr := pos_ne hmu hh
  have hn : V3.norm (exactProp r v mu t).1 = radOf r v mu (exactChi r v mu t) := step_norm hr hmu
  have hχ := C31_generalized_anomaly hmu hh (t := t) (χ := exactChi r v mu t)
    (r' := (exactProp r v mu t).1) (v' := (exactProp r v mu t).2) (isRoot_exactChi hmu hh t) rfl
  simp only [dxdx0, Nat.cast_one]
  rw [hχ, hn]
  simp only [C_func, lagrange_F, lagrange_G, lagrange_Ft, lagrange_Gt, C07_ufunc1, C07_ufunc2, C07_ufunc4,
    C07_ufunc5, sqrt_real, Nat.cast_one, Nat.cast_ofNat, cF, cG, cFt, cGt, alphaOf]
  rfl

section
variable {ρ ν : ℝ → V3 ℝ} {dρ dν : V3 ℝ} {s0 mu t : ℝ} (hmu : 0 < mu)
  (hh : angular_momentum (ρ s0) (ν s0) ≠ ⟨0, 0, 0⟩) (hρ : HasDerivV ρ dρ s0) (hν : HasDerivV ν dν s0)
include hmu hh hρ hν

/-- C29 along curves: move the initial state along any differentiable curve; the propagated state moves with
velocity `dxdx0` times the velocity of the initial state. -/
theorem C29_curve :
    let P := exactProp (ρ s0) (ν s0) mu t
    let Φ := dxdx0 P.1 P.2 (ρ s0) (ν s0) t mu
    HasDerivV (fun s => (exactProp (ρ s) (ν s) mu t).1) (M3.mulVec Φ.rr dρ + M3.mulVec Φ.rv dν) s0 ∧
    HasDerivV (fun s => (exactProp (ρ s) (ν s) mu t).2) (M3.mulVec Φ.vr dρ + M3.mulVec Φ.vv dν) s0 := by
  intro P Φ
  change cross (ρ s0) (ν s0) ≠ ⟨0, 0, 0⟩ at hh
  have hr := pos_ne hmu hh
  have h0 : V3.norm (ρ s0) ≠ 0 := ((norm_pos _).2 hr).ne'
  have hs : Real.sqrt mu ≠ 0 := (Real.sqrt_pos.2 hmu).ne'
  have hs2 : Real.sqrt mu ^ 2 = mu := Real.sq_sqrt hmu.le
  have hn : V3.norm P.1 = radOf (ρ s0) (ν s0) mu (exactChi (ρ s0) (ν s0) mu t) := step_norm hr hmu
  have hrad : radOf (ρ s0) (ν s0) mu (exactChi (ρ s0) (ν s0) mu t) ≠ 0 := (radOf_pos hmu hh).ne'
  have hrv : dot P.1 P.2 = Real.sqrt mu * sigOf (ρ s0) (ν s0) mu (exactChi (ρ s0) (ν s0) mu t) :=
    step_rv hr hmu hrad
  have hrr := norm_sq P.1
  rw [hn] at hrr
  have hP := exactProp_eq (r := ρ s0) (v := ν s0) (mu := mu) t
  -- variations of the scalars
  have hN := hρ.norm h0
  have hA : HasDerivAt (fun s => alphaOf (ρ s) (ν s) mu)
      (-(2 * dot (ρ s0) dρ / V3.norm (ρ s0) ^ 3) - 2 * dot (ν s0) dν / mu) s0 := by
    simp only [alphaOf, inv_semimajor_axis, invA]
    have h1 := (hasDerivAt_const s0 (2 : ℝ)).fun_div hN h0
    have h2 := (hν.dot hν).div_const mu
    refine (h1.fun_sub h2).congr_deriv ?_
    rw [dot_comm dν]
    field_simp; ring
  have hS : HasDerivAt (fun s => sigma_fn (ρ s) (ν s) mu)
      ((dot (ρ s0) dν + dot (ν s0) dρ) / Real.sqrt mu) s0 := by
    simp only [sigma_fn, sqrt_real]
    refine ((hρ.dot hν).div_const _).congr_deriv ?_
    rw [dot_comm dρ]; ring
  have hρ' : DiffV ρ s0 := ⟨hρ.x.differentiableAt, hρ.y.differentiableAt, hρ.z.differentiableAt⟩
  have hν' : DiffV ν s0 := ⟨hν.x.differentiableAt, hν.y.differentiableAt, hν.z.differentiableAt⟩
  have hX := (differentiableAt_exactChi (t := t) hmu hh hρ' hν').hasDerivAt
  set X' := deriv (fun s => exactChi (ρ s) (ν s) mu t) s0
  have hconst : HasDerivAt (fun s => kepU (alphaOf (ρ s) (ν s) mu) (V3.norm (ρ s)) (sigma_fn (ρ s) (ν s) mu)
      (exactChi (ρ s) (ν s) mu t)) 0 s0 := by
    refine (hasDerivAt_const s0 (Real.sqrt mu * t)).congr_of_eventuallyEq ?_
    filter_upwards [eventually_cross_ne hh hρ' hν'] with s hs
    exact kepU_exactChi hmu hs t
  have hK := kepU_exactChi hmu hh t
  obtain ⟨hU0, hU1, hU2⟩ := hasDerivAt_U012 hX hA
  have hU3 := hasDerivAt_U_curve 2 hX hA
  have hk := hconst.unique (((hN.fun_mul hU1).fun_add (hS.fun_mul hU2)).fun_add hU3)
  have hR := ((hN.fun_mul hU0).fun_add (hS.fun_mul hU1)).fun_add hU2
  have hΦ := dxdx0_eq hmu hh t
  change Φ = _ at hΦ
  change P = _ at hP
  have hR' : HasDerivAt (fun s => radU (alphaOf (ρ s) (ν s) mu) (V3.norm (ρ s)) (sigma_fn (ρ s) (ν s) mu)
      (exactChi (ρ s) (ν s) mu t)) _ s0 := hR
  have hF := (hU2.fun_div hN h0).const_sub 1
  have hG := ((hN.fun_mul hU1).fun_add (hS.fun_mul hU2)).div_const (Real.sqrt mu)
  have hFt := (((hasDerivAt_const s0 (-Real.sqrt mu)).fun_div hR' hrad).fun_mul hU1).fun_div hN h0
  have hGt := (hU2.fun_div hR' hrad).const_sub 1
  have dF := (HasDerivV.smul hF hρ).add (HasDerivV.smul hG hν)
  have dFt := (HasDerivV.smul hFt hρ).add (HasDerivV.smul hGt hν)
  rw [hΦ]
  simp only [mulVec_prpr0, mulVec_prpv0, mulVec_pvpr0, mulVec_pvpv0]
  rw [show (exactProp (ρ s0) (ν s0) mu t) = P from rfl, hn, hrv, ← hrr, hP]
  simp only [exactProp_eq, cF, cG, cFt, cGt]
  have dot2 : ∀ (a b : ℝ) (x : V3 ℝ), dot (a • ρ s0 + b • ν s0) x = a * dot (ρ s0) x + b * dot (ν s0) x := by
    intro a b x; simp only [dot, add_x, add_y, add_z, smul_x, smul_y, smul_z]; ring
  have dot3 : ∀ (a b : ℝ) (x : V3 ℝ), dot (a • ρ s0 + b • ν s0 - ν s0) x
      = a * dot (ρ s0) x + (b - 1) * dot (ν s0) x := by
    intro a b x; simp only [dot, add_x, add_y, add_z, sub_x, sub_y, sub_z, smul_x, smul_y, smul_z]; ring
  simp only [dot2, dot3]
  have hRe : radOf (ρ s0) (ν s0) mu (exactChi (ρ s0) (ν s0) mu t)
      = V3.norm (ρ s0) * (1 - alphaOf (ρ s0) (ν s0) mu * U 2 (exactChi (ρ s0) (ν s0) mu t) (alphaOf (ρ s0) (ν s0) mu))
        + sigma_fn (ρ s0) (ν s0) mu * U 1 (exactChi (ρ s0) (ν s0) mu t) (alphaOf (ρ s0) (ν s0) mu)
        + U 2 (exactChi (ρ s0) (ν s0) mu t) (alphaOf (ρ s0) (ν s0) mu) := by
    simp only [radOf, radU, U0_eq]
  have hSe : sigOf (ρ s0) (ν s0) mu (exactChi (ρ s0) (ν s0) mu t)
      = sigma_fn (ρ s0) (ν s0) mu
          * (1 - alphaOf (ρ s0) (ν s0) mu * U 2 (exactChi (ρ s0) (ν s0) mu t) (alphaOf (ρ s0) (ν s0) mu))
        + (1 - alphaOf (ρ s0) (ν s0) mu * V3.norm (ρ s0))
          * U 1 (exactChi (ρ s0) (ν s0) mu t) (alphaOf (ρ s0) (ν s0) mu) := by
    simp only [sigOf, sigU, U0_eq]
  have h1 := U1_sq (exactChi (ρ s0) (ν s0) mu t) (alphaOf (ρ s0) (ν s0) mu)
  rw [hSe]
  simp only [kepU] at hK
  simp only [U0_eq] at dF dFt hk
  set χ := exactChi (ρ s0) (ν s0) mu t with hχ
  set α := alphaOf (ρ s0) (ν s0) mu with hα
  set σ0 := sigma_fn (ρ s0) (ν s0) mu with hσ0
  set r0 := V3.norm (ρ s0) with hr0
  set R := radOf (ρ s0) (ν s0) mu χ with hRdef
  set w := Real.sqrt mu with hw
  set C := (3 * U 5 χ α - χ * U 4 χ α - w * t * U 2 χ α) / w with hC
  set rp := dot (ρ s0) dρ / r0 with hrp
  set ap := -(2 * dot (ρ s0) dρ / r0 ^ 3) - 2 * dot (ν s0) dν / mu with hap
  set sp := (dot (ρ s0) dν + dot (ν s0) dρ) / w with hsp
  set Xv := X' + ap * U 3 χ α / 2 with hXv
  have hap' : ap = -(2 * dot (ρ s0) dρ / r0 ^ 3) - 2 * dot (ν s0) dν / w ^ 2 := by rw [hs2]
  have hC' : w * C = 3 * U 5 χ α - χ * U 4 χ α - w * t * U 2 χ α := by rw [hC]; field_simp
  have hXe : Xv = -(rp * U 1 χ α + sp * U 2 χ α + ap * w * C / 2) / R := by
    clear dF dFt hF hG hFt hGt hR hR' hU0 hU1 hU2 hU3 hconst hΦ hP
    rw [eq_div_iff hrad]
    push_cast at hk
    linear_combination Xv * hRe - hk + U 2 χ α * hXv + ap / 2 * hC' + ap / 2 * U 2 χ α * hK
  have e1 := stm_F h0 hrad hs hrp hap' hsp hXe
  have e2 := stm_G h0 hrad hs hrp hap' hsp hXe hRe
  have e3 := stm_Ft h0 hrad hs hrp hap' hsp hXe hRe h1
  have e4 := stm_Gt h0 hrad hs hrp hap' hsp hXe hRe h1
  rw [hs2] at e1 e2 e3 e4
  have hRR : radU α r0 σ0 χ = R := rfl
  rw [hRR] at dFt
  have br : ∀ R' U1' : ℝ, ((((0 * R - -w * R') / R ^ 2) * U 1 χ α + -w / R * U1') * r0 - -w / R * U 1 χ α * rp) / r0 ^ 2
      = -w * (U1' / (R * r0) - U 1 χ α * R' / (R ^ 2 * r0) - U 1 χ α * rp / (R * r0 ^ 2)) := by
    intro R' U1'
    field_simp
    ring
  rw [br] at dFt
  refine ⟨dF.congr_deriv ?_, dFt.congr_deriv ?_⟩
  · ext <;> simp only [add_x, add_y, add_z, sub_x, sub_y, sub_z, smul_x, smul_y, smul_z]
    · linear_combination (ρ s0).x * e1 + (ν s0).x * e2
    · linear_combination (ρ s0).y * e1 + (ν s0).y * e2
    · linear_combination (ρ s0).z * e1 + (ν s0).z * e2
  · ext <;> simp only [add_x, add_y, add_z, sub_x, sub_y, sub_z, neg_x, neg_y, neg_z, smul_x, smul_y, smul_z]
    · linear_combination (ρ s0).x * e3 + (ν s0).x * e4
    · linear_combination (ρ s0).y * e3 + (ν s0).y * e4
    · linear_combination (ρ s0).z * e3 + (ν s0).z * e4

end

theorem coord_mulVec (m : M3 ℝ) (x : V3 ℝ) : m.mat.mulVec x.coord = (M3.mulVec m x).coord := by
  funext i
  fin_cases i <;> simp [M3.mat, V3.coord, M3.mulVec, V3.dot, Matrix.mulVec, dotProduct, Fin.sum_univ_three]

theorem posOf_coord (x : Fin 3 ⊕ Fin 3 → ℝ) : (posOf x).coord = x ∘ Sum.inl := by
  funext i; fin_cases i <;> rfl

theorem velOf_coord (x : Fin 3 ⊕ Fin 3 → ℝ) : (velOf x).coord = x ∘ Sum.inr := by
  funext i; fin_cases i <;> rfl

theorem coord_add (a b : V3 ℝ) : (a + b).coord = a.coord + b.coord := by
  funext i; fin_cases i <;> rfl

/-- The matrix of a block array acts on a phase-space vector block-wise. -/
theorem B6.mat_mulVec (b : B6 ℝ) (x : Fin 3 ⊕ Fin 3 → ℝ) :
    b.mat.mulVec x = phase (M3.mulVec b.rr (posOf x) + M3.mulVec b.rv (velOf x),
      M3.mulVec b.vr (posOf x) + M3.mulVec b.vv (velOf x)) := by
  rw [B6.mat, Matrix.fromBlocks_mulVec, ← posOf_coord, ← velOf_coord]
  simp only [coord_mulVec, phase, coord_add]

/-- C29: at the exactly propagated state, `dxdx0` is the Fréchet derivative of the map sending the initial
position and velocity to the propagated position and velocity. -/
theorem C29_jacobian {x : Fin 3 ⊕ Fin 3 → ℝ} {mu : ℝ} (hmu : 0 < mu)
    (hh : angular_momentum (posOf x) (velOf x) ≠ ⟨0, 0, 0⟩) (t : ℝ) :
    let P := exactProp (posOf x) (velOf x) mu t
    HasFDerivAt (fun y => phase (exactProp (posOf y) (velOf y) mu t))
      (Matrix.toLin' (dxdx0 P.1 P.2 (posOf x) (velOf x) t mu).mat).toContinuousLinearMap x := by
  intro P
  have hp : DiffV posOf x := ⟨differentiableAt_apply _ _, differentiableAt_apply _ _, differentiableAt_apply _ _⟩
  have hv : DiffV velOf x := ⟨differentiableAt_apply _ _, differentiableAt_apply _ _, differentiableAt_apply _ _⟩
  obtain ⟨d1, d2⟩ := diffV_exactProp (t := t) hmu hh hp hv
  have hd : DifferentiableAt ℝ (fun y => phase (exactProp (posOf y) (velOf y) mu t)) x := by
    rw [differentiableAt_pi]
    rintro (i | i) <;> fin_cases i
    exacts [d1.x, d1.y, d1.z, d2.x, d2.y, d2.z]
  refine hd.hasFDerivAt.congr_fderiv ?_
  refine ContinuousLinearMap.ext fun δ => ?_
  have hl : HasDerivAt (fun s : ℝ => x + s • δ) δ 0 := by
    simpa using ((hasDerivAt_id (0 : ℝ)).smul_const δ).const_add x
  have hx0 : x + (0 : ℝ) • δ = x := by simp
  have hd' := hd.hasFDerivAt
  rw [← hx0] at hd'
  have hc := HasFDerivAt.comp_hasDerivAt (f := fun s : ℝ => x + s • δ) (0 : ℝ) hd' hl
  rw [hx0] at hc
  have hl' : ∀ i, HasDerivAt (fun s : ℝ => (x + s • δ) i) (δ i) 0 := fun i => hasDerivAt_pi.1 hl i
  have hcur := C29_curve (ρ := fun s => posOf (x + s • δ)) (ν := fun s => velOf (x + s • δ)) (dρ := posOf δ)
    (dν := velOf δ) (s0 := 0) (t := t) hmu (by simpa using hh) ⟨hl' _, hl' _, hl' _⟩ ⟨hl' _, hl' _, hl' _⟩
  simp only [zero_smul, add_zero] at hcur
  obtain ⟨c1, c2⟩ := hcur
  have hc' : HasDerivAt (fun s : ℝ => phase (exactProp (posOf (x + s • δ)) (velOf (x + s • δ)) mu t))
      ((dxdx0 P.1 P.2 (posOf x) (velOf x) t mu).mat.mulVec δ) 0 := by
    rw [B6.mat_mulVec]
    rw [hasDerivAt_pi]
    rintro (i | i) <;> fin_cases i
    exacts [c1.x, c1.y, c1.z, c2.x, c2.y, c2.z]
  have := hc.unique hc'
  simpa using this

/-- The hypotheses of `C29_jacobian` hold for the state `(1,0,0), (0,1,0)`. -/
example (t : ℝ) :
    let x : Fin 3 ⊕ Fin 3 → ℝ := phase (⟨1, 0, 0⟩, ⟨0, 1, 0⟩)
    let P := exactProp (posOf x) (velOf x) 1 t
    HasFDerivAt (fun y => phase (exactProp (posOf y) (velOf y) 1 t))
      (Matrix.toLin' (dxdx0 P.1 P.2 (posOf x) (velOf x) t 1).mat).toContinuousLinearMap x :=
  C29_jacobian one_pos (by
    intro h
    have := congrArg V3.z h
    simp [angular_momentum, V3.cross, posOf, velOf, phase, V3.coord] at this) t

end Adx
