import Verif.Props.C40
import Verif.Lemmas.Orbit
import Mathlib.Analysis.Calculus.MeanValue
import Mathlib.Analysis.SpecialFunctions.Trigonometric.Deriv

/-! # C41: conservation laws along trajectories of the force models -/

namespace Adx
open V3 Spec

theorem const_of_hasDerivAt {S : Set ℝ} (hS : IsOpen S) (hS' : IsPreconnected S) {f : ℝ → ℝ}
    (h : ∀ s ∈ S, HasDerivAt f 0 s) {s t : ℝ} (hs : s ∈ S) (ht : t ∈ S) : f s = f t := by
  obtain ⟨a, ha⟩ := hS.exists_is_const_of_deriv_eq_zero hS'
    (fun x hx => (h x hx).differentiableAt.differentiableWithinAt) (fun x hx => (h x hx).deriv)
  rw [ha s hs, ha t ht]

/-- A trajectory of the full zonal model on the time set `S`: position has derivative velocity, and
velocity has as derivative the sum of the four accelerations returned by the library. -/
structure ZonalTrajectory (args : Args ℝ) (S : Set ℝ) (r v : ℝ → V3 ℝ) : Prop where
  /-- away from the attracting centre -/
  avoid : ∀ s ∈ S, r s ≠ ⟨0, 0, 0⟩
  /-- kinematics -/
  pos : ∀ s ∈ S, HasDerivV r (v s) s
  /-- dynamics -/
  vel : ∀ s ∈ S, ∃ a0 a2 a3 a4 rest, point_mass_grav s ⟨r s, rest⟩ args = .ok a0 ∧
    j2_acc s ⟨r s, rest⟩ args = .ok a2 ∧ j3_acc s ⟨r s, rest⟩ args = .ok a3 ∧
    j4_acc s ⟨r s, rest⟩ args = .ok a4 ∧ HasDerivV v (a0 + a2 + a3 + a4) s

variable {args : Args ℝ} {S : Set ℝ} {r v : ℝ → V3 ℝ} {mu J2 J3 J4 R : ℝ}

/-- C41: total energy is constant. -/
theorem C41_energy (hS : IsOpen S) (hS' : IsPreconnected S) (h : ZonalTrajectory args S r v)
    (hm : args "mu" = some mu) (h2 : args "J2" = some J2) (h3 : args "J3" = some J3)
    (h4 : args "J4" = some J4) (hR : args "R_eq" = some R) {s t : ℝ} (hs : s ∈ S) (ht : t ∈ S) :
    let E := fun s => dot (v s) (v s) / 2 - centralPotential mu (r s) - zonalPotential 2 mu J2 R (r s)
      - zonalPotential 3 mu J3 R (r s) - zonalPotential 4 mu J4 R (r s)
    E s = E t := by
  intro E
  refine const_of_hasDerivAt hS hS' (f := E) (fun s hs => ?_) hs ht
  obtain ⟨a0, a2, a3, a4, rest, e0, e2, e3, e4, hv⟩ := h.vel s hs
  have hr := h.pos s hs
  have hx := h.avoid s hs
  obtain ⟨b0, f0, g0⟩ := C40_point_mass (t := s) (x := ⟨r s, rest⟩) hx hm
  obtain ⟨b2, f2, g2⟩ := C40_j2 (t := s) (x := ⟨r s, rest⟩) hx hm h2 hR
  obtain ⟨b3, f3, g3⟩ := C40_j3 (t := s) (x := ⟨r s, rest⟩) hx hm h3 hR
  obtain ⟨b4, f4, g4⟩ := C40_j4 (t := s) (x := ⟨r s, rest⟩) hx hm h4 hR
  rw [e0] at f0; rw [e2] at f2; rw [e3] at f3; rw [e4] at f4
  cases f0; cases f2; cases f3; cases f4
  refine (((((hv.dot hv).div_const 2).fun_sub (g0 r (v s) s rfl hr)).fun_sub
    (g2 r (v s) s rfl hr)).fun_sub (g3 r (v s) s rfl hr)).fun_sub (g4 r (v s) s rfl hr) |>.congr_deriv ?_
  simp only [dot, add_x, add_y, add_z]
  ring

/-- C41: the polar component of the angular momentum is constant (axial symmetry). -/
theorem C41_hz (hS : IsOpen S) (hS' : IsPreconnected S) (h : ZonalTrajectory args S r v)
    {s t : ℝ} (hs : s ∈ S) (ht : t ∈ S) :
    (angular_momentum (r s) (v s)).z = (angular_momentum (r t) (v t)).z := by
  refine const_of_hasDerivAt hS hS' (f := fun s => (angular_momentum (r s) (v s)).z)
    (fun s hs => ?_) hs ht
  obtain ⟨a0, a2, a3, a4, rest, e0, e2, e3, e4, hv⟩ := h.vel s hs
  have hr := h.pos s hs
  refine (hr.cross hv).z.congr_deriv ?_
  -- each acceleration is parallel to (x, y) in the equatorial plane
  have p0 : (r s).x * a0.y - (r s).y * a0.x = 0 := by
    rcases hm : args "mu" with _ | mu <;>
      simp only [point_mass_grav, Args.get, hm, bind, Except.bind, pure, Except.pure, reduceCtorEq,
        Except.ok.injEq] at e0
    rw [← e0]; ring
  have p2 : (r s).x * a2.y - (r s).y * a2.x = 0 := by
    rcases hm : args "mu" with _ | mu <;> rcases hj : args "J2" with _ | J <;>
      rcases hR : args "R_eq" with _ | R <;>
      simp only [j2_acc, Args.get, hm, hj, hR, bind, Except.bind, pure, Except.pure, reduceCtorEq,
        Except.ok.injEq] at e2
    rw [← e2]; ring
  have p3 : (r s).x * a3.y - (r s).y * a3.x = 0 := by
    rcases hm : args "mu" with _ | mu <;> rcases hj : args "J3" with _ | J <;>
      rcases hR : args "R_eq" with _ | R <;>
      simp only [j3_acc, Args.get, hm, hj, hR, bind, Except.bind, pure, Except.pure, reduceCtorEq,
        Except.ok.injEq] at e3
    rw [← e3]; ring
  have p4 : (r s).x * a4.y - (r s).y * a4.x = 0 := by
    rcases hm : args "mu" with _ | mu <;> rcases hj : args "J4" with _ | J <;>
      rcases hR : args "R_eq" with _ | R <;>
      simp only [j4_acc, Args.get, hm, hj, hR, bind, Except.bind, pure, Except.pure, reduceCtorEq,
        Except.ok.injEq] at e4
    rw [← e4]; ring
  simp only [add_x, add_y, add_z, cross_z]
  linear_combination p0 + p2 + p3 + p4

/-- A trajectory under the point-mass attraction alone. -/
structure KeplerTrajectory (mu : ℝ) (S : Set ℝ) (r v : ℝ → V3 ℝ) : Prop where
  /-- away from the attracting centre -/
  avoid : ∀ s ∈ S, r s ≠ ⟨0, 0, 0⟩
  /-- kinematics -/
  pos : ∀ s ∈ S, HasDerivV r (v s) s
  /-- dynamics: Newton's law of gravitation -/
  vel : ∀ s ∈ S, HasDerivV v ((-(mu / V3.norm (r s) ^ 3)) • r s) s

/-- The dynamics of `KeplerTrajectory` is what `point_mass_grav` returns. -/
theorem C41_point_mass_is_newton (t mu : ℝ) (x : State ℝ) (args : Args ℝ) (hm : args "mu" = some mu) :
    point_mass_grav t x args = .ok ((-(mu / V3.norm x.pos ^ 3)) • x.pos) := by
  simp only [point_mass_grav, Args.get, hm, bind, Except.bind, pure, Except.pure]
  rfl

theorem KeplerTrajectory.hasDerivV_ecc (h : KeplerTrajectory mu S r v) (hmu : mu ≠ 0)
    {s : ℝ} (hs : s ∈ S) :
    HasDerivV (fun s => eccentricity_vector (r s) (v s) mu) ⟨0, 0, 0⟩ s := by
  have hr := h.pos s hs
  have hv := h.vel s hs
  have hn : V3.norm (r s) ≠ 0 := ((norm_pos _).2 (h.avoid s hs)).ne'
  have h2 := norm_sq (r s)
  have hvv := (hv.dot hv).div_const mu
  have hrv := (hr.dot hv).div_const mu
  have hi := (hr.norm hn).fun_inv hn
  have e1 : (fun s => eccentricity_vector (r s) (v s) mu)
      = fun s => (dot (v s) (v s) / mu - (V3.norm (r s))⁻¹) • r s - (dot (r s) (v s) / mu) • v s := by
    funext s; rw [ecc_eq, one_div]
  rw [e1]
  refine ((HasDerivV.smul (hvv.fun_sub hi) hr).sub (HasDerivV.smul hrv hv)).congr_deriv ?_
  have hd : dot (r s) ((-(mu / V3.norm (r s) ^ 3)) • r s) = -(mu / V3.norm (r s) ^ 3) * V3.norm (r s) ^ 2 := by
    rw [h2]; simp only [dot, smul_x, smul_y, smul_z]; ring
  have hd2 : dot (v s) ((-(mu / V3.norm (r s) ^ 3)) • r s) = -(mu / V3.norm (r s) ^ 3) * dot (r s) (v s) := by
    simp only [dot, smul_x, smul_y, smul_z]; ring
  have hd3 : dot ((-(mu / V3.norm (r s) ^ 3)) • r s) (v s) = -(mu / V3.norm (r s) ^ 3) * dot (r s) (v s) := by
    simp only [dot, smul_x, smul_y, smul_z]; ring
  rw [hd, hd2, hd3]
  ext <;> simp only [sub_x, sub_y, sub_z, add_x, add_y, add_z, smul_x, smul_y, smul_z] <;> field_simp <;>
    ring

/-- C41: under the point mass alone the angular momentum vector, the eccentricity vector and the
semimajor axis returned by the library are constant along every trajectory. -/
theorem C41_kepler_integrals (hS : IsOpen S) (hS' : IsPreconnected S) (h : KeplerTrajectory mu S r v)
    (hmu : mu ≠ 0) {s t : ℝ} (hs : s ∈ S) (ht : t ∈ S) :
    angular_momentum (r s) (v s) = angular_momentum (r t) (v t) ∧
    eccentricity_vector (r s) (v s) mu = eccentricity_vector (r t) (v t) mu ∧
    semimajor_axis (V3.norm (r s)) (V3.norm (v s)) mu
      = semimajor_axis (V3.norm (r t)) (V3.norm (v t)) mu := by
  refine ⟨?_, ?_, ?_⟩
  · have hd : ∀ s ∈ S, HasDerivV (fun s => angular_momentum (r s) (v s)) ⟨0, 0, 0⟩ s := by
      intro s hs
      refine ((h.pos s hs).cross (h.vel s hs)).congr_deriv ?_
      ext <;> simp only [add_x, add_y, add_z, cross_x, cross_y, cross_z, smul_x, smul_y, smul_z] <;> ring
    ext
    · exact const_of_hasDerivAt hS hS' (fun s hs => (hd s hs).x) hs ht
    · exact const_of_hasDerivAt hS hS' (fun s hs => (hd s hs).y) hs ht
    · exact const_of_hasDerivAt hS hS' (fun s hs => (hd s hs).z) hs ht
  · ext
    · exact const_of_hasDerivAt hS hS' (fun s hs => (h.hasDerivV_ecc hmu hs).x) hs ht
    · exact const_of_hasDerivAt hS hS' (fun s hs => (h.hasDerivV_ecc hmu hs).y) hs ht
    · exact const_of_hasDerivAt hS hS' (fun s hs => (h.hasDerivV_ecc hmu hs).z) hs ht
  · have hd : ∀ s ∈ S, HasDerivAt (fun s => 2 * (V3.norm (r s))⁻¹ - dot (v s) (v s) / mu) 0 s := by
      intro s hs
      have hr := h.pos s hs
      have hv := h.vel s hs
      have hn : V3.norm (r s) ≠ 0 := ((norm_pos _).2 (h.avoid s hs)).ne'
      refine ((((hr.norm hn).fun_inv hn).const_mul 2).fun_sub ((hv.dot hv).div_const mu)).congr_deriv ?_
      simp only [dot, smul_x, smul_y, smul_z]
      field_simp
      ring
    have hc := const_of_hasDerivAt hS hS' hd hs ht
    simp only [semimajor_axis, norm_sq, Nat.cast_one, Nat.cast_ofNat]
    rw [div_eq_mul_inv 2, div_eq_mul_inv 2, hc]

/-- Non-vacuity: the unit circular orbit is a trajectory. -/
example : KeplerTrajectory 1 Set.univ (fun s => ⟨Real.cos s, Real.sin s, 0⟩)
    (fun s => ⟨-Real.sin s, Real.cos s, 0⟩) := by
  have hn : ∀ s, V3.norm (⟨Real.cos s, Real.sin s, 0⟩ : V3 ℝ) = 1 := by
    intro s
    simp only [V3.norm, dot, sqrt_real]
    rw [show Real.cos s * Real.cos s + Real.sin s * Real.sin s + 0 * 0 = 1 by
      nlinarith [Real.sin_sq_add_cos_sq s], Real.sqrt_one]
  refine ⟨fun s _ => (norm_pos _).1 (by rw [hn]; norm_num), fun s _ => ?_, fun s _ => ?_⟩
  · exact ⟨Real.hasDerivAt_cos s, Real.hasDerivAt_sin s, hasDerivAt_const s 0⟩
  · rw [hn]
    refine ⟨(Real.hasDerivAt_sin s).neg.congr_deriv ?_, (Real.hasDerivAt_cos s).congr_deriv ?_,
      (hasDerivAt_const s (0 : ℝ)).congr_deriv ?_⟩ <;> simp

end Adx
