import Verif.Props.C30
import Verif.Props.C57b
import Verif.Props.C27
import Verif.Props.C54

/-! # C65: transition matrices compose, and carry the symmetries of the motion -/

namespace Adx
open Spec V3 Filter Topology

/-- Newton's acceleration `-mu q / |q|³`. -/
noncomputable def newtonAcc (mu : ℝ) (q : V3 ℝ) : V3 ℝ :=
  (-mu / Real.sqrt (q.x ^ 2 + q.y ^ 2 + q.z ^ 2) ^ 3) • q

section
variable {r v : V3 ℝ} {mu : ℝ}

theorem B6.one_mat : B6.one.mat = 1 := by
  rw [B6.mat, ← Matrix.fromBlocks_one]
  congr 1 <;> · ext i j; fin_cases i <;> fin_cases j <;> simp [B6.one, M3.mat, M3.eye]

theorem posOf_phase_pair (r v : V3 ℝ) : posOf (phase (r, v)) = r := rfl
theorem velOf_phase_pair (r v : V3 ℝ) : velOf (phase (r, v)) = v := rfl

variable (hmu : 0 < mu) (hh : angular_momentum r v ≠ ⟨0, 0, 0⟩)
include hmu hh

theorem exactProp_h (t : ℝ) :
    angular_momentum (exactProp r v mu t).1 (exactProp r v mu t).2 = angular_momentum r v :=
  step_h (pos_ne hmu hh) hmu (radOf_pos hmu hh).ne'

/-- C65: the transition matrix over `t1 + t2` is the product of the one over `t2`, taken from the state reached
after `t1`, and the one over `t1`. -/
theorem C65_composition (t1 t2 : ℝ) :
    let P := exactProp r v mu t1
    let Q := exactProp r v mu (t1 + t2)
    (dxdx0 Q.1 Q.2 P.1 P.2 t2 mu).mat * (dxdx0 P.1 P.2 r v t1 mu).mat = (dxdx0 Q.1 Q.2 r v (t1 + t2) mu).mat := by
  intro P Q
  have hP : angular_momentum P.1 P.2 ≠ ⟨0, 0, 0⟩ := by rw [exactProp_h hmu hh]; exact hh
  have j1 := C29_jacobian (x := phase (r, v)) hmu hh t1
  have j2 := C29_jacobian (x := phase P) hmu hP t2
  have j3 := C29_jacobian (x := phase (r, v)) hmu hh (t1 + t2)
  simp only [posOf_phase, velOf_phase] at j1 j2 j3
  have hQ : exactProp P.1 P.2 mu t2 = Q := C24_composition hmu hh t1 t2
  rw [hQ] at j2
  have hc := HasFDerivAt.comp (f := fun y => phase (exactProp (posOf y) (velOf y) mu t1)) (phase (r, v)) j2 j1
  have hev : ∀ᶠ y in 𝓝 (phase (r, v)), cross (posOf y) (velOf y) ≠ ⟨0, 0, 0⟩ :=
    eventually_cross_ne (f := posOf) (g := velOf) hh
      ⟨differentiableAt_apply _ _, differentiableAt_apply _ _, differentiableAt_apply _ _⟩
      ⟨differentiableAt_apply _ _, differentiableAt_apply _ _, differentiableAt_apply _ _⟩
  have hc' := hc.congr_of_eventuallyEq (f₁ := fun y => phase (exactProp (posOf y) (velOf y) mu (t1 + t2))) (by
    filter_upwards [hev] with y hy
    simp only [Function.comp, posOf_phase, velOf_phase]
    rw [C24_composition hmu hy])
  have hu := hc'.unique j3
  apply Matrix.toLin'.injective
  rw [Matrix.toLin'_mul]
  refine LinearMap.ext fun x => ?_
  exact congrArg (fun f : (Fin 3 ⊕ Fin 3 → ℝ) →L[ℝ] (Fin 3 ⊕ Fin 3 → ℝ) => f x) hu

/-- C65: the transition matrix of the way back is the inverse. -/
theorem C65_inverse (t : ℝ) :
    let P := exactProp r v mu t
    (dxdx0 r v P.1 P.2 (-t) mu).mat * (dxdx0 P.1 P.2 r v t mu).mat = 1 ∧
    (dxdx0 P.1 P.2 r v t mu).mat * (dxdx0 r v P.1 P.2 (-t) mu).mat = 1 := by
  intro P
  have h := C65_composition hmu hh t (-t)
  simp only [add_neg_cancel, exactProp_zero hmu hh, C28_identity (v := v) (pos_ne hmu hh) hmu, B6.one_mat] at h
  exact ⟨h, mul_eq_one_comm.1 h⟩

/-- C65: moving the initial state along its own orbit moves the final state along the orbit: the matrix maps velocity
and acceleration at the start to velocity and acceleration at the end. -/
theorem C65_flow (t : ℝ) :
    let P := exactProp r v mu t
    let Φ := dxdx0 P.1 P.2 r v t mu
    M3.mulVec Φ.rr v + M3.mulVec Φ.rv (newtonAcc mu r) = P.2 ∧
    M3.mulVec Φ.vr v + M3.mulVec Φ.vv (newtonAcc mu r) = newtonAcc mu P.1 := by
  intro P Φ
  obtain ⟨h0, hsol⟩ := C21_solves_two_body hmu hh
  obtain ⟨-, a, b⟩ := hsol 0 (Set.mem_univ _)
  obtain ⟨-, a', b'⟩ := hsol (0 + t) (Set.mem_univ _)
  have hc := C29_curve (t := t) (s0 := 0) (ρ := fun s => (exactProp r v mu s).1) (ν := fun s => (exactProp r v mu s).2)
    hmu (by simp only [h0]; exact hh) a b
  simp only [h0] at hc
  have hk : HasDerivAt (fun s : ℝ => s + t) 1 0 := (hasDerivAt_id' (0 : ℝ)).add_const t
  have d1 := a'.scomp (k := fun s => s + t) hk
  have d2 := b'.scomp (k := fun s => s + t) hk
  simp only [C24_composition hmu hh] at hc
  simp only [zero_add] at d1 d2
  obtain ⟨c1, c2⟩ := hc
  refine ⟨?_, ?_⟩
  · have e := V3.ext (c1.x.unique d1.x) (c1.y.unique d1.y) (c1.z.unique d1.z)
    rw [show (1 : ℝ) • (exactProp r v mu t).2 = P.2 by ext <;> simp [P]] at e
    exact e
  · have e := V3.ext (c2.x.unique d2.x) (c2.y.unique d2.y) (c2.z.unique d2.z)
    rw [show ∀ q : V3 ℝ, (1 : ℝ) • q = q from fun q => by ext <;> simp] at e
    exact e

/-- C65: turning the initial state turns the final state by the same (infinitesimal) rotation. -/
theorem C65_turn (t : ℝ) (ω : V3 ℝ) :
    let P := exactProp r v mu t
    let Φ := dxdx0 P.1 P.2 r v t mu
    M3.mulVec Φ.rr (cross ω r) + M3.mulVec Φ.rv (cross ω v) = cross ω P.1 ∧
    M3.mulVec Φ.vr (cross ω r) + M3.mulVec Φ.vv (cross ω v) = cross ω P.2 := by
  intro P Φ
  have h := dxdx0_apply hmu hh t (cross ω r) (cross ω v)
  have e1 : dot r (cross ω r) = 0 := by simp only [dot, cross]; ring
  have e2 : dot v (cross ω v) = 0 := by simp only [dot, cross]; ring
  have e3 : dot r (cross ω v) + dot v (cross ω r) = 0 := by simp only [dot, cross]; ring
  simp only [e1, e2, e3, mul_zero, zero_div, zero_mul, neg_zero, sub_zero, add_zero, vF, vG, vFt, vGt] at h
  have hP : P = _ := exactProp_eq (r := r) (v := v) (mu := mu) t
  obtain ⟨h1, h2⟩ := h
  refine ⟨h1.trans ?_, h2.trans ?_⟩
  · rw [hP]
    simp only [cF, cG]
    ext <;> simp only [add_x, add_y, add_z, smul_x, smul_y, smul_z, cross] <;> ring
  · rw [hP]
    simp only [cFt, cGt]
    ext <;> simp only [add_x, add_y, add_z, smul_x, smul_y, smul_z, cross] <;> ring

/-- C65: the variation of the energy is the same at both ends. -/
theorem C65_energy (t : ℝ) (x y : V3 ℝ) :
    let P := exactProp r v mu t
    let Φ := dxdx0 P.1 P.2 r v t mu
    let x' := M3.mulVec Φ.rr x + M3.mulVec Φ.rv y
    let y' := M3.mulVec Φ.vr x + M3.mulVec Φ.vv y
    dot P.2 y' - dot (newtonAcc mu P.1) x' = dot v y - dot (newtonAcc mu r) x := by
  intro P Φ x' y'
  have h := dxdx0_form hmu hh t x y v (newtonAcc mu r)
  obtain ⟨h1, h2⟩ := C65_flow hmu hh t
  simp only [h1, h2] at h
  simp only [dot_comm P.2, dot_comm (newtonAcc mu P.1), dot_comm v, dot_comm (newtonAcc mu r)]
  linear_combination -h

/-- C65: so is the variation of the angular momentum. -/
theorem C65_momentum (t : ℝ) (x y : V3 ℝ) :
    let P := exactProp r v mu t
    let Φ := dxdx0 P.1 P.2 r v t mu
    let x' := M3.mulVec Φ.rr x + M3.mulVec Φ.rv y
    let y' := M3.mulVec Φ.vr x + M3.mulVec Φ.vv y
    cross x' P.2 + cross P.1 y' = cross x v + cross r y := by
  intro P Φ x' y'
  have key : ∀ ω : V3 ℝ, dot ω (cross x' P.2 + cross P.1 y') = dot ω (cross x v + cross r y) := by
    intro ω
    have h := dxdx0_form hmu hh t x y (cross ω r) (cross ω v)
    obtain ⟨h1, h2⟩ := C65_turn hmu hh t ω
    simp only [h1, h2] at h
    have e : ∀ a b c d : V3 ℝ, dot ω (cross a b + cross c d) = -(dot a (cross ω b) - dot d (cross ω c)) := by
      intro a b c d
      simp only [dot, cross, add_x, add_y, add_z]; ring
    rw [e, e]
    exact congrArg Neg.neg h
  have h1 := key ⟨1, 0, 0⟩
  have h2 := key ⟨0, 1, 0⟩
  have h3 := key ⟨0, 0, 1⟩
  simp only [dot, one_mul, zero_mul, add_zero, zero_add] at h1 h2 h3
  exact V3.ext h1 h2 h3

/-- C65: Kepler's third law. Enlarging the orbit by a factor `k²` and slowing the motion down by `k³` is a symmetry;
its derivative `(2 r, -v)` is mapped to `(2 r - 3 t v, -v - 3 t a)`. -/
theorem C65_scaling (t : ℝ) :
    let P := exactProp r v mu t
    let Φ := dxdx0 P.1 P.2 r v t mu
    M3.mulVec Φ.rr ((2 : ℝ) • r) + M3.mulVec Φ.rv (-v) = (2 : ℝ) • P.1 - (3 * t) • P.2 ∧
    M3.mulVec Φ.vr ((2 : ℝ) • r) + M3.mulVec Φ.vv (-v) = -P.2 - (3 * t) • newtonAcc mu P.1 := by
  intro P Φ
  obtain ⟨-, hsol⟩ := C21_solves_two_body hmu hh
  obtain ⟨-, a, b⟩ := hsol (t / 1 ^ 3) (Set.mem_univ _)
  have k2 : HasDerivAt (fun s : ℝ => s ^ 2) 2 1 := (hasDerivAt_pow 2 (1 : ℝ)).congr_deriv (by norm_num)
  have ki : HasDerivAt (fun s : ℝ => s⁻¹) (-1) 1 := (hasDerivAt_inv (one_ne_zero)).congr_deriv (by norm_num)
  have k3 : HasDerivAt (fun s : ℝ => t / s ^ 3) (-(3 * t)) 1 :=
    ((hasDerivAt_const (1 : ℝ) t).fun_div (hasDerivAt_pow 3 (1 : ℝ)) (by norm_num)).congr_deriv (by norm_num; ring)
  have one_smulV : ∀ q : V3 ℝ, (1 : ℝ) • q = q := fun q => by ext <;> simp
  have hρ : HasDerivV (fun s : ℝ => s ^ 2 • r) ((2 : ℝ) • r) 1 :=
    (HasDerivV.smul k2 (hasDerivV_const r 1)).congr_deriv (by ext <;> simp)
  have hν : HasDerivV (fun s : ℝ => s⁻¹ • v) (-v) 1 :=
    (HasDerivV.smul ki (hasDerivV_const v 1)).congr_deriv (by ext <;> simp)
  have hc := C29_curve (t := t) (s0 := 1) hmu (by simp only [one_pow, inv_one, one_smulV]; exact hh) hρ hν
  simp only [one_pow, inv_one, one_smulV] at hc
  obtain ⟨c1, c2⟩ := hc
  have hloc : ∀ s : ℝ, 0 < s → exactProp (s ^ 2 • r) (s⁻¹ • v) mu t
      = (s ^ 2 • (exactProp r v mu (t / s ^ 3)).1, s⁻¹ • (exactProp r v mu (t / s ^ 3)).2) := by
    intro s hs
    have h := C57_exact ⟨s ^ 2, s ^ 3, by positivity, by positivity⟩ hmu hh (t / s ^ 3)
    have e1 : s ^ 2 / s ^ 3 = s⁻¹ := by field_simp
    have e2 : (s ^ 2) ^ 3 / (s ^ 3) ^ 2 * mu = mu := by field_simp
    have e3 : s ^ 3 * (t / s ^ 3) = t := by field_simp
    simp only [Units.pos, Units.vel, Units.grav, Units.time, e1, e2, e3] at h
    exact h
  have hev : ∀ᶠ s : ℝ in 𝓝 1, 0 < s := eventually_gt_nhds one_pos
  have d1 := HasDerivV.smul k2 (a.scomp (k := fun s => t / s ^ 3) k3)
  have d2 := HasDerivV.smul ki (b.scomp (k := fun s => t / s ^ 3) k3)
  have hE1 : ∀ᶠ s in 𝓝 (1 : ℝ), (exactProp (s ^ 2 • r) (s⁻¹ • v) mu t).1 = s ^ 2 • (exactProp r v mu (t / s ^ 3)).1 := by
    filter_upwards [hev] with s hs
    rw [hloc s hs]
  have hE2 : ∀ᶠ s in 𝓝 (1 : ℝ), (exactProp (s ^ 2 • r) (s⁻¹ • v) mu t).2 = s⁻¹ • (exactProp r v mu (t / s ^ 3)).2 := by
    filter_upwards [hev] with s hs
    rw [hloc s hs]
  have g1 := V3.ext (c1.x.unique (d1.x.congr_of_eventuallyEq (hE1.mono fun _ h => congrArg V3.x h)))
    (c1.y.unique (d1.y.congr_of_eventuallyEq (hE1.mono fun _ h => congrArg V3.y h)))
    (c1.z.unique (d1.z.congr_of_eventuallyEq (hE1.mono fun _ h => congrArg V3.z h)))
  have g2 := V3.ext (c2.x.unique (d2.x.congr_of_eventuallyEq (hE2.mono fun _ h => congrArg V3.x h)))
    (c2.y.unique (d2.y.congr_of_eventuallyEq (hE2.mono fun _ h => congrArg V3.y h)))
    (c2.z.unique (d2.z.congr_of_eventuallyEq (hE2.mono fun _ h => congrArg V3.z h)))
  simp only [one_pow, div_one, inv_one, one_smulV] at g1 g2
  refine ⟨g1.trans ?_, g2.trans ?_⟩
  · ext <;> simp [P] <;> ring
  · ext <;> simp [P, newtonAcc] <;> ring

/-- C65: the transition matrix over `k` revolutions. It is not the identity: a variation of the initial state changes
the period, and the body is ahead or behind by `k` times that change, along its velocity. -/
theorem C65_monodromy (ha : 0 < aOf r v mu) (k : ℤ) (x y : V3 ℝ) :
    let t := k * orb_period (aOf r v mu) mu
    let Φ := dxdx0 r v r v t mu
    let δ := -3 * aOf r v mu * t * (dot r x / V3.norm r ^ 3 + dot v y / mu)
    M3.mulVec Φ.rr x + M3.mulVec Φ.rv y = x + δ • v ∧
    M3.mulVec Φ.vr x + M3.mulVec Φ.vv y = y + δ • newtonAcc mu r := by
  intro t Φ δ
  have hP : exactProp r v mu t = (r, v) := (C54_elliptic_return hmu hh ha t).2.2 ⟨k, rfl⟩
  have hr := pos_ne hmu hh
  have h0 : V3.norm r ≠ 0 := ((norm_pos _).2 hr).ne'
  have hs : Real.sqrt mu ≠ 0 := (Real.sqrt_pos.2 hmu).ne'
  have hs2 : Real.sqrt mu ^ 2 = mu := Real.sq_sqrt hmu.le
  have hR : radOf r v mu (exactChi r v mu t) = V3.norm r := by
    have := step_norm (χ := exactChi r v mu t) (v := v) hr hmu
    rw [← this]
    exact congrArg (fun q => V3.norm q.1) hP
  have hα0 : alphaOf r v mu = 1 / aOf r v mu := rfl
  have hα : alphaOf r v mu ≠ 0 := by rw [hα0]; positivity
  have hU2 : U 2 (exactChi r v mu t) (alphaOf r v mu) = 0 := U2_of_return hmu hh (congrArg Prod.fst hP)
  have hU1 : U 1 (exactChi r v mu t) (alphaOf r v mu) = 0 := by
    have := U1_sq (exactChi r v mu t) (alphaOf r v mu)
    rw [hU2, zero_mul] at this
    exact pow_eq_zero_iff (two_ne_zero) |>.1 this
  have hk := kepU_exactChi hmu hh t
  simp only [kepU, hU1, hU2, mul_zero, zero_add] at hk
  have hχ : exactChi r v mu t / alphaOf r v mu = Real.sqrt mu * t := by
    rw [← hk, U_of_rec 1 hα, hU1]; simp
  have h := dxdx0_apply hmu hh t x y
  simp only [hP, hR] at h
  have h4 : U 4 (exactChi r v mu t) (alphaOf r v mu) = exactChi r v mu t ^ 2 / 2 / alphaOf r v mu := by
    rw [U_of_rec 2 hα, hU2]; norm_num
  have h5 : U 5 (exactChi r v mu t) (alphaOf r v mu)
      = (exactChi r v mu t ^ 3 / 6 - Real.sqrt mu * t) / alphaOf r v mu := by
    rw [U_of_rec 3 hα, hk]; norm_num [Nat.factorial]
  have hC : (3 * U 5 (exactChi r v mu t) (alphaOf r v mu) - exactChi r v mu t * U 4 (exactChi r v mu t) (alphaOf r v mu)
      - Real.sqrt mu * t * U 2 (exactChi r v mu t) (alphaOf r v mu)) / Real.sqrt mu = -(3 * t * aOf r v mu) := by
    rw [h4, h5, hU2, hα0]; field_simp; ring
  rw [hC, hU1, hU2] at h
  simp only [vF, vG, vFt, vGt] at h
  have hna : newtonAcc mu r = (-mu / V3.norm r ^ 3) • r := by
    rw [newtonAcc, show Real.sqrt (r.x ^ 2 + r.y ^ 2 + r.z ^ 2) = V3.norm r from radius_eq_norm r]
  rw [hna]
  have hδ : δ = -3 * aOf r v mu * t * (dot r x / V3.norm r ^ 3 + dot v y / Real.sqrt mu ^ 2) := by rw [hs2]
  have hq : (-mu / V3.norm r ^ 3) = -Real.sqrt mu ^ 2 / V3.norm r ^ 3 := by rw [hs2]
  rw [hq, hδ]
  clear_value δ t
  generalize Real.sqrt mu = w at h hs ⊢
  generalize V3.norm r = n at h h0 ⊢
  generalize aOf r v mu = a at h ⊢
  refine ⟨h.1.trans ?_, h.2.trans ?_⟩
  · ext <;> simp only [add_x, add_y, add_z, smul_x, smul_y, smul_z] <;> field_simp <;> ring
  · ext <;> simp only [add_x, add_y, add_z, smul_x, smul_y, smul_z] <;> field_simp <;> ring

end

theorem prpr0_rev (r v r0 v0 : V3 ℝ) (F C mu : ℝ) : prpr0 r (-v) r0 (-v0) F (-C) mu = prpr0 r v r0 v0 F C mu := by
  ext <;> simp [prpr0, M3.outer, M3.eye] <;> ring

theorem prpv0_rev (r v r0 v0 : V3 ℝ) (F G C mu : ℝ) :
    prpv0 r (-v) r0 (-v0) F (-G) (-C) mu = -prpv0 r v r0 v0 F G C mu := by
  ext <;> simp [prpv0, M3.outer, M3.eye] <;> ring

theorem pvpr0_rev (r v r0 v0 : V3 ℝ) (Ft C mu : ℝ) :
    pvpr0 r (-v) r0 (-v0) (-Ft) (-C) mu = -pvpr0 r v r0 v0 Ft C mu := by
  ext <;> simp [pvpr0, M3.outer, M3.eye, M3.mul, M3.transpose, dot] <;> ring

theorem pvpv0_rev (r v r0 v0 : V3 ℝ) (F Gt C mu : ℝ) :
    pvpv0 r (-v) r0 (-v0) F Gt (-C) mu = pvpv0 r v r0 v0 F Gt C mu := by
  ext <;> simp only [pvpv0, M3.outer, M3.eye, M3.add_r0, M3.add_r1, M3.add_r2,
      M3.smul_r0, M3.smul_r1, M3.smul_r2, M3.sub_r0, M3.sub_r1, M3.sub_r2, M3.div_r0, M3.div_r1, M3.div_r2, add_x,
      add_y, add_z, sub_x, sub_y, sub_z, div_x, div_y, div_z, smul_x, smul_y, smul_z, neg_x, neg_y, neg_z] <;> ring

/-- C65: the matrix of the reversed motion has the off-diagonal blocks with the opposite sign (for all arguments,
also states that do not lie on one orbit). -/
theorem C65_reversal (r v r0 v0 : V3 ℝ) (t mu : ℝ) :
    dxdx0 r (-v) r0 (-v0) (-t) mu =
      ⟨(dxdx0 r v r0 v0 t mu).rr, -(dxdx0 r v r0 v0 t mu).rv, -(dxdx0 r v r0 v0 t mu).vr, (dxdx0 r v r0 v0 t mu).vv⟩ := by
  have hn : ∀ a : V3 ℝ, V3.norm (-a) = V3.norm a := fun a => by
    simp only [V3.norm, sqrt_real]; congr 1; simp only [dot, neg_x, neg_y, neg_z]; ring
  have hσ : ∀ a b : V3 ℝ, sigma_fn a (-b) mu = -sigma_fn a b mu := fun a b => by
    simp only [sigma_fn, dot, neg_x, neg_y, neg_z]; ring
  have hχ : ∀ a s s0 : ℝ, generalized_anomaly a (-s) (-s0) (-t) mu = -generalized_anomaly a s s0 t mu := by
    intro a s s0; simp only [generalized_anomaly]; ring
  simp only [dxdx0, hn, hσ, hχ]
  generalize ((1 : ℕ) : ℝ) / semimajor_axis (V3.norm r0) (V3.norm v0) mu = α
  generalize generalized_anomaly α (sigma_fn r v mu) (sigma_fn r0 v0 mu) t mu = χ
  obtain ⟨-, h1, h2, -, h4, h5⟩ := C08_parity χ α
  rw [h1, h2, h4, h5]
  have hC : ∀ a b c : ℝ, C_func (-χ) a b (-c) (-t) mu = -C_func χ a b c t mu := fun a b c => by
    simp only [C_func]; ring
  have hG : ∀ a b s n : ℝ, lagrange_G (-a) b (-s) n mu = -lagrange_G a b s n mu := fun a b s n => by
    simp only [lagrange_G]; ring
  have hFt : ∀ a n m : ℝ, lagrange_Ft (-a) n m mu = -lagrange_Ft a n m mu := fun a n m => by
    simp only [lagrange_Ft]; ring
  rw [hC, hG, hFt, prpr0_rev, prpv0_rev, pvpr0_rev, pvpv0_rev]

section
variable {R : M3 ℝ} (hR : IsRotation R)
include hR

/-- C65: the blocks turn with the frame (for all arguments). -/
theorem C65_frame (r v r0 v0 x : V3 ℝ) (t mu : ℝ) :
    let Φ := dxdx0 r v r0 v0 t mu
    let Ψ := dxdx0 (M3.mulVec R r) (M3.mulVec R v) (M3.mulVec R r0) (M3.mulVec R v0) t mu
    M3.mulVec Ψ.rr (M3.mulVec R x) = M3.mulVec R (M3.mulVec Φ.rr x) ∧
    M3.mulVec Ψ.rv (M3.mulVec R x) = M3.mulVec R (M3.mulVec Φ.rv x) ∧
    M3.mulVec Ψ.vr (M3.mulVec R x) = M3.mulVec R (M3.mulVec Φ.vr x) ∧
    M3.mulVec Ψ.vv (M3.mulVec R x) = M3.mulVec R (M3.mulVec Φ.vv x) := by
  have hneg : ∀ a, M3.mulVec R (-a) = -M3.mulVec R a := fun a => by
    ext <;> simp only [M3.mulVec, dot, neg_x, neg_y, neg_z] <;> ring
  have hσ : ∀ a b, sigma_fn (M3.mulVec R a) (M3.mulVec R b) mu = sigma_fn a b mu := fun a b => by
    simp only [sigma_fn, hR.dot]
  simp only [dxdx0, mulVec_prpr0, mulVec_prpv0, mulVec_pvpr0, mulVec_pvpv0, hR.norm, hσ, ← mulVec_sub, ← mulVec_add,
    ← mulVec_smul, hR.dot, ← hneg, and_self]

end
/-- The hypotheses hold for the state `(1,0,0), (0,1,0)`; a quarter of the circle twice is half of it. -/
example :
    let P := exactProp ⟨1, 0, 0⟩ ⟨0, 1, 0⟩ 1 (Real.pi / 2)
    let Q := exactProp ⟨1, 0, 0⟩ ⟨0, 1, 0⟩ 1 (Real.pi / 2 + Real.pi / 2)
    (dxdx0 Q.1 Q.2 P.1 P.2 (Real.pi / 2) 1).mat * (dxdx0 P.1 P.2 ⟨1, 0, 0⟩ ⟨0, 1, 0⟩ (Real.pi / 2) 1).mat
      = (dxdx0 Q.1 Q.2 ⟨1, 0, 0⟩ ⟨0, 1, 0⟩ (Real.pi / 2 + Real.pi / 2) 1).mat :=
  C65_composition one_pos (by
    intro h
    have := congrArg V3.z h
    simp [angular_momentum, V3.cross] at this) _ _

/-- `C65_monodromy` at the unit circle: one revolution started a little faster puts the body behind. -/
example (y : V3 ℝ) :
    let t := (1 : ℤ) * orb_period (aOf ⟨1, 0, 0⟩ ⟨0, 1, 0⟩ 1) 1
    let Φ := dxdx0 ⟨1, 0, 0⟩ ⟨0, 1, 0⟩ ⟨1, 0, 0⟩ ⟨0, 1, 0⟩ t 1
    M3.mulVec Φ.rr ⟨0, 0, 0⟩ + M3.mulVec Φ.rv y = (-(6 * Real.pi * y.y)) • (⟨0, 1, 0⟩ : V3 ℝ) := by
  have h1 : V3.norm (⟨1, 0, 0⟩ : V3 ℝ) = 1 := by rw [norm_unfold]; norm_num
  have h2 : V3.norm (⟨0, 1, 0⟩ : V3 ℝ) = 1 := by rw [norm_unfold]; norm_num
  have ha : aOf ⟨1, 0, 0⟩ ⟨0, 1, 0⟩ 1 = 1 := by rw [aOf, semimajor_axis, h1, h2]; norm_num
  have h := (C65_monodromy (r := ⟨1, 0, 0⟩) (v := ⟨0, 1, 0⟩) one_pos (by
    intro h
    have := congrArg V3.z h
    simp [angular_momentum, V3.cross] at this) (by rw [ha]; exact one_pos) 1 ⟨0, 0, 0⟩ y).1
  intro t Φ
  refine h.trans ?_
  rw [ha, h1]
  ext <;> simp [orb_period, dot]
  left; ring

end Adx
