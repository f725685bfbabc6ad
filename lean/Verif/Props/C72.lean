import Verif.Lemmas.Rev
import Verif.Props.C62

/-! # C72: reverse-mode derivatives of the formulas

Reverse mode is the transpose of forward mode for every function without a loop, at every argument, smooth or not
(`C72_transpose`). Where the formula is smooth the reverse pass returns the gradient, whatever functions came before it:
if the arguments carry their gradients with respect to the inputs, so does the result.
The exception is again `ufunc0 … ufunc5` at `alpha = 0`. -/

namespace Adx
open Spec
variable {ι : Type} [Fintype ι] {x : ι → ℝ}

/-- An input carries its own gradient. -/
theorem C72_input [DecidableEq ι] (x : ι → ℝ) (i : ι) : IsGrad (fun u => u i) x (Rev.input x i) := by
  refine ⟨rfl, fun ct j => ?_, fun w => ?_⟩
  · simp only [pullback, Rev.input, Rev.grad]; split_ifs <;> simp
  · have : ∑ j, (Rev.input x i).grad j * w j = w i := by simp [Rev.input, Rev.grad]
    rw [this]
    have h := ((hasDerivAt_id (0 : ℝ)).mul_const (w i)).const_add (x i)
    simpa [line] using h

/-- A constant has gradient 0. -/
theorem C72_const (c : ℝ) : IsGrad (fun _ => c) x (Rev.const c) := by
  refine ⟨rfl, fun ct j => by simp [pullback, Rev.const, Rev.grad], fun w => ?_⟩
  simpa [Rev.const, Rev.grad] using hasDerivAt_const (0 : ℝ) c

section
variable {a mu P r v p e f h U0 U1 U2 U4 U5 s0 r0 E M H N t chi alpha sg i Ω ω an rp r1 r2 : (ι → ℝ) → ℝ}
variable {a' mu' P' r' v' p' e' f' h' U0' U1' U2' U4' U5' s0' r0' E' M' H' N' t' chi' alpha' sg' i' Ω' ω' an' rp' r1' r2' :
  Rev ι ℝ}
variable {rv vv ev nv hv : (ι → ℝ) → V3 ℝ} {rv' vv' ev' nv' hv' : V3 (Rev ι ℝ)}

theorem C72_orb_period (ha : IsGrad a x a') (hmu : IsGrad mu x mu') (h1 : 0 < a x) (h2 : 0 < mu x) :
    IsGrad (fun u => orb_period (a u) (mu u)) x (orb_period a' mu') :=
  .of_fwd (fun w => (RD.compat w).orb_period (ha.rd w) (hmu.rd w)) fun w =>
    C62_orb_period (ha.tracks w) (hmu.tracks w) (by simpa using h1) (by simpa using h2)

theorem C72_a_from_period (hP : IsGrad P x P') (hmu : IsGrad mu x mu') (h1 : P x ≠ 0) (h2 : 0 < mu x) :
    IsGrad (fun u => a_from_period (P u) (mu u)) x (a_from_period P' mu') :=
  .of_fwd (fun w => (RD.compat w).a_from_period (hP.rd w) (hmu.rd w)) fun w =>
    C62_a_from_period (hP.tracks w) (hmu.tracks w) (by simpa using h1) (by simpa using h2)

theorem C72_mean_motion (hP : IsGrad P x P') (h1 : P x ≠ 0) :
    IsGrad (fun u => mean_motion (P u)) x (mean_motion P') :=
  .of_fwd (fun w => (RD.compat w).mean_motion (hP.rd w)) fun w => C62_mean_motion (hP.tracks w) (by simpa using h1)

theorem C72_norm (hr : IsGradV rv x rv') (h0 : rv x ≠ ⟨0, 0, 0⟩) : IsGrad (fun u => V3.norm (rv u)) x (V3.norm rv') :=
  .of_fwd (fun w => (RD.compat w).norm (hr.rd w)) fun w => (hr.tracks w).norm (by simpa using h0)

theorem C72_angular_momentum (hr : IsGradV rv x rv') (hv : IsGradV vv x vv') :
    IsGradV (fun u => angular_momentum (rv u) (vv u)) x (angular_momentum rv' vv') :=
  .of_fwd (fun w => (RD.compat w).angular_momentum (hr.rd w) (hv.rd w)) fun w =>
    C62_angular_momentum (hr.tracks w) (hv.tracks w)

theorem C72_semimajor_axis (hr : IsGrad r x r') (hv : IsGrad v x v') (hmu : IsGrad mu x mu') (h1 : r x ≠ 0)
    (h2 : mu x ≠ 0) (h3 : 2 / r x - v x ^ 2 / mu x ≠ 0) :
    IsGrad (fun u => semimajor_axis (r u) (v u) (mu u)) x (semimajor_axis r' v' mu') :=
  .of_fwd (fun w => (RD.compat w).semimajor_axis (hr.rd w) (hv.rd w) (hmu.rd w)) fun w =>
    C62_semimajor_axis (hr.tracks w) (hv.tracks w) (hmu.tracks w) (by simpa using h1) (by simpa using h2)
      (by simpa using h3)

theorem C72_eccentricity_vector (hr : IsGradV rv x rv') (hv : IsGradV vv x vv') (hmu : IsGrad mu x mu')
    (h1 : rv x ≠ ⟨0, 0, 0⟩) (h2 : mu x ≠ 0) :
    IsGradV (fun u => eccentricity_vector (rv u) (vv u) (mu u)) x (eccentricity_vector rv' vv' mu') :=
  .of_fwd (fun w => (RD.compat w).eccentricity_vector (hr.rd w) (hv.rd w) (hmu.rd w)) fun w =>
    C62_eccentricity_vector (hr.tracks w) (hv.tracks w) (hmu.tracks w) (by simpa using h1) (by simpa using h2)

theorem C72_semiparameter (hh : IsGrad h x h') (hmu : IsGrad mu x mu') (h2 : mu x ≠ 0) :
    IsGrad (fun u => semiparameter (h u) (mu u)) x (semiparameter h' mu') :=
  .of_fwd (fun w => (RD.compat w).semiparameter (hh.rd w) (hmu.rd w)) fun w =>
    C62_semiparameter (hh.tracks w) (hmu.tracks w) (by simpa using h2)

theorem C72_equ_of_orbit (hp : IsGrad p x p') (he : IsGrad e x e') (hf : IsGrad f x f')
    (h0 : 1 + e x * Real.cos (f x) ≠ 0) :
    IsGrad (fun u => equ_of_orbit (p u) (e u) (f u)) x (equ_of_orbit p' e' f') :=
  .of_fwd (fun w => (RD.compat w).equ_of_orbit (hp.rd w) (he.rd w) (hf.rd w)) fun w =>
    C62_equ_of_orbit (hp.tracks w) (he.tracks w) (hf.tracks w) (by simpa using h0)

theorem C72_equ_of_orb_uvi (h0 : IsGrad U0 x U0') (h1 : IsGrad U1 x U1') (h2 : IsGrad U2 x U2') (hr : IsGrad r x r')
    (hs : IsGrad s0 x s0') :
    IsGrad (fun u => equ_of_orb_uvi (U0 u) (U1 u) (U2 u) (r u) (s0 u)) x (equ_of_orb_uvi U0' U1' U2' r' s0') :=
  .of_fwd (fun w => (RD.compat w).equ_of_orb_uvi (h0.rd w) (h1.rd w) (h2.rd w) (hr.rd w) (hs.rd w)) fun w =>
    C62_equ_of_orb_uvi (h0.tracks w) (h1.tracks w) (h2.tracks w) (hr.tracks w) (hs.tracks w)

theorem C72_sizes (ha : IsGrad a x a') (hp : IsGrad p x p') (he : IsGrad e x e') :
    (1 + e x ≠ 0 → IsGrad (fun u => radius_periapsis (p u) (e u)) x (radius_periapsis p' e')) ∧
    (1 - e x ≠ 0 → IsGrad (fun u => radius_apoapsis (p u) (e u)) x (radius_apoapsis p' e')) ∧
    IsGrad (fun u => semipara_from_ae (a u) (e u)) x (semipara_from_ae a' e') ∧
    (1 - e x ^ 2 ≠ 0 → IsGrad (fun u => a_from_pe (p u) (e u)) x (a_from_pe p' e')) :=
  ⟨fun h => .of_fwd (fun w => (RD.compat w).radius_periapsis (hp.rd w) (he.rd w)) fun w =>
      (C62_radii (hp.tracks w) (he.tracks w)).1 (by simpa using h),
    fun h => .of_fwd (fun w => (RD.compat w).radius_apoapsis (hp.rd w) (he.rd w)) fun w =>
      (C62_radii (hp.tracks w) (he.tracks w)).2 (by simpa using h),
    .of_fwd (fun w => (RD.compat w).semipara_from_ae (ha.rd w) (he.rd w)) fun w =>
      (C62_sizes (ha.tracks w) (hp.tracks w) (he.tracks w)).1,
    fun h => .of_fwd (fun w => (RD.compat w).a_from_pe (hp.rd w) (he.rd w)) fun w =>
      (C62_sizes (ha.tracks w) (hp.tracks w) (he.tracks w)).2 (by simpa using h)⟩

theorem C72_sigma (hr : IsGradV rv x rv') (hv : IsGradV vv x vv') (hmu : IsGrad mu x mu') (h0 : 0 < mu x) :
    IsGrad (fun u => sigma_fn (rv u) (vv u) (mu u)) x (sigma_fn rv' vv' mu') :=
  .of_fwd (fun w => (RD.compat w).sigma_fn (hr.rd w) (hv.rd w) (hmu.rd w)) fun w =>
    C62_sigma (hr.tracks w) (hv.tracks w) (hmu.tracks w) (by simpa using h0)

theorem C72_lagrange (h1 : IsGrad U1 x U1') (h2 : IsGrad U2 x U2') (hs : IsGrad s0 x s0') (hr : IsGrad r x r')
    (hr0 : IsGrad r0 x r0') (hmu : IsGrad mu x mu') (hr1 : r x ≠ 0) (hr2 : r0 x ≠ 0) (h0 : 0 < mu x) :
    IsGrad (fun u => lagrange_F (U2 u) (r0 u)) x (lagrange_F U2' r0') ∧
    IsGrad (fun u => lagrange_G (U1 u) (U2 u) (s0 u) (r0 u) (mu u)) x (lagrange_G U1' U2' s0' r0' mu') ∧
    IsGrad (fun u => lagrange_Ft (U1 u) (r u) (r0 u) (mu u)) x (lagrange_Ft U1' r' r0' mu') ∧
    IsGrad (fun u => lagrange_Gt (U2 u) (r u)) x (lagrange_Gt U2' r') := by
  have T := fun w => C62_lagrange (h1.tracks w) (h2.tracks w) (hs.tracks w) (hr.tracks w) (hr0.tracks w) (hmu.tracks w)
    (by simpa using hr1) (by simpa using hr2) (by simpa using h0)
  exact ⟨.of_fwd (fun w => (RD.compat w).lagrange_F (h2.rd w) (hr0.rd w)) fun w => (T w).1,
    .of_fwd (fun w => (RD.compat w).lagrange_G (h1.rd w) (h2.rd w) (hs.rd w) (hr0.rd w) (hmu.rd w)) fun w => (T w).2.1,
    .of_fwd (fun w => (RD.compat w).lagrange_Ft (h1.rd w) (hr.rd w) (hr0.rd w) (hmu.rd w)) fun w => (T w).2.2.1,
    .of_fwd (fun w => (RD.compat w).lagrange_Gt (h2.rd w) (hr.rd w)) fun w => (T w).2.2.2⟩

theorem C72_kepler_equ (hE : IsGrad E x E') (he : IsGrad e x e') (hM : IsGrad M x M') (hH : IsGrad H x H')
    (hN : IsGrad N x N') :
    IsGrad (fun u => kepler_equ_elps (E u) (e u) (M u)) x (kepler_equ_elps E' e' M') ∧
    IsGrad (fun u => dE (E u) (e u)) x (dE E' e') ∧
    IsGrad (fun u => kepler_equ_hypb (H u) (e u) (N u)) x (kepler_equ_hypb H' e' N') ∧
    IsGrad (fun u => dH (H u) (e u)) x (dH H' e') := by
  have T := fun w => C62_kepler_equ (hE.tracks w) (he.tracks w) (hM.tracks w) (hH.tracks w) (hN.tracks w)
  exact ⟨.of_fwd (fun w => (RD.compat w).kepler_equ_elps (hE.rd w) (he.rd w) (hM.rd w)) fun w => (T w).1,
    .of_fwd (fun w => (RD.compat w).dE (hE.rd w) (he.rd w)) fun w => (T w).2.1,
    .of_fwd (fun w => (RD.compat w).kepler_equ_hypb (hH.rd w) (he.rd w) (hN.rd w)) fun w => (T w).2.2.1,
    .of_fwd (fun w => (RD.compat w).dH (hH.rd w) (he.rd w)) fun w => (T w).2.2.2⟩

theorem C72_mean_anomaly (ha : IsGrad a x a') (ht : IsGrad t x t') (hmu : IsGrad mu x mu') (h0 : 0 < mu x) :
    (0 < a x → IsGrad (fun u => mean_anomaly_elps (a u) (t u) (mu u)) x (mean_anomaly_elps a' t' mu')) ∧
    (a x < 0 → IsGrad (fun u => mean_anomaly_hypb (a u) (t u) (mu u)) x (mean_anomaly_hypb a' t' mu')) := by
  have T := fun w => C62_mean_anomaly (ha.tracks w) (ht.tracks w) (hmu.tracks w) (by simpa using h0)
  exact ⟨fun h => .of_fwd (fun w => (RD.compat w).mean_anomaly_elps (ha.rd w) (ht.rd w) (hmu.rd w)) fun w =>
      (T w).1 (by simpa using h),
    fun h => .of_fwd (fun w => (RD.compat w).mean_anomaly_hypb (ha.rd w) (ht.rd w) (hmu.rd w)) fun w =>
      (T w).2 (by simpa using h)⟩

theorem C72_generalized_anomaly (hal : IsGrad alpha x alpha') (hs : IsGrad sg x sg') (hs0 : IsGrad s0 x s0')
    (ht : IsGrad t x t') (hmu : IsGrad mu x mu') (h0 : 0 < mu x) :
    IsGrad (fun u => generalized_anomaly (alpha u) (sg u) (s0 u) (t u) (mu u)) x
      (generalized_anomaly alpha' sg' s0' t' mu') :=
  .of_fwd (fun w => (RD.compat w).generalized_anomaly (hal.rd w) (hs.rd w) (hs0.rd w) (ht.rd w) (hmu.rd w)) fun w =>
    C62_generalized_anomaly (hal.tracks w) (hs.tracks w) (hs0.tracks w) (ht.tracks w) (hmu.tracks w) (by simpa using h0)

theorem C72_ufunc (hc : IsGrad chi x chi') (ha : IsGrad alpha x alpha') (h0 : alpha x ≠ 0) :
    IsGrad (fun u => ufunc0 (chi u) (alpha u)) x (ufunc0 chi' alpha') ∧
    IsGrad (fun u => ufunc1 (chi u) (alpha u)) x (ufunc1 chi' alpha') ∧
    IsGrad (fun u => ufunc2 (chi u) (alpha u)) x (ufunc2 chi' alpha') ∧
    IsGrad (fun u => ufunc3 (chi u) (alpha u)) x (ufunc3 chi' alpha') ∧
    IsGrad (fun u => ufunc4 (chi u) (alpha u)) x (ufunc4 chi' alpha') ∧
    IsGrad (fun u => ufunc5 (chi u) (alpha u)) x (ufunc5 chi' alpha') := by
  have T := fun w => C62_ufunc (hc.tracks w) (ha.tracks w) (by simpa using h0)
  exact ⟨.of_fwd (fun w => (RD.compat w).ufunc0 (hc.rd w) (ha.rd w)) fun w => (T w).1,
    .of_fwd (fun w => (RD.compat w).ufunc1 (hc.rd w) (ha.rd w)) fun w => (T w).2.1,
    .of_fwd (fun w => (RD.compat w).ufunc2 (hc.rd w) (ha.rd w)) fun w => (T w).2.2.1,
    .of_fwd (fun w => (RD.compat w).ufunc3 (hc.rd w) (ha.rd w)) fun w => (T w).2.2.2.1,
    .of_fwd (fun w => (RD.compat w).ufunc4 (hc.rd w) (ha.rd w)) fun w => (T w).2.2.2.2.1,
    .of_fwd (fun w => (RD.compat w).ufunc5 (hc.rd w) (ha.rd w)) fun w => (T w).2.2.2.2.2⟩

theorem C72_kepler_equ_uni (hc : IsGrad chi x chi') (ha : IsGrad alpha x alpha') (hr : IsGrad r0 x r0')
    (hs : IsGrad s0 x s0') (ht : IsGrad t x t') (hmu : IsGrad mu x mu') (h0 : alpha x ≠ 0) (hm : 0 < mu x) :
    IsGrad (fun u => kepler_equ_uni (chi u) (alpha u) (r0 u) (s0 u) (t u) (mu u)) x
      (kepler_equ_uni chi' alpha' r0' s0' t' mu') ∧
    IsGrad (fun u => dchi (chi u) (alpha u) (r0 u) (s0 u)) x (dchi chi' alpha' r0' s0') := by
  have T := fun w => C62_kepler_equ_uni (hc.tracks w) (ha.tracks w) (hr.tracks w) (hs.tracks w) (ht.tracks w)
    (hmu.tracks w) (by simpa using h0) (by simpa using hm)
  exact ⟨.of_fwd (fun w => (RD.compat w).kepler_equ_uni (hc.rd w) (ha.rd w) (hr.rd w) (hs.rd w) (ht.rd w) (hmu.rd w))
      fun w => (T w).1,
    .of_fwd (fun w => (RD.compat w).dchi (hc.rd w) (ha.rd w) (hr.rd w) (hs.rd w)) fun w => (T w).2⟩

theorem C72_C_func (hc : IsGrad chi x chi') (h2 : IsGrad U2 x U2') (h4 : IsGrad U4 x U4') (h5 : IsGrad U5 x U5')
    (ht : IsGrad t x t') (hmu : IsGrad mu x mu') (h0 : 0 < mu x) :
    IsGrad (fun u => C_func (chi u) (U2 u) (U4 u) (U5 u) (t u) (mu u)) x (C_func chi' U2' U4' U5' t' mu') :=
  .of_fwd (fun w => (RD.compat w).C_func (hc.rd w) (h2.rd w) (h4.rd w) (h5.rd w) (ht.rd w) (hmu.rd w)) fun w =>
    C62_C_func (hc.tracks w) (h2.tracks w) (h4.tracks w) (h5.tracks w) (ht.tracks w) (hmu.tracks w) (by simpa using h0)

/-- One propagation step, given the universal variable: the part of `kepler` after the loop. -/
theorem C72_keplerStep (hc : IsGrad chi x chi') (ha : IsGrad alpha x alpha') (hr : IsGrad r0 x r0')
    (hs : IsGrad s0 x s0') (hrv : IsGradV rv x rv') (hvv : IsGradV vv x vv') (hmu : IsGrad mu x mu')
    (h0 : alpha x ≠ 0) (hm : 0 < mu x) (hr0 : r0 x ≠ 0) (hd : dchi (chi x) (alpha x) (r0 x) (s0 x) ≠ 0) :
    IsGradV (fun u => (keplerStep (chi u) (alpha u) (r0 u) (s0 u) (rv u) (vv u) (mu u)).1) x
      (keplerStep chi' alpha' r0' s0' rv' vv' mu').1 ∧
    IsGradV (fun u => (keplerStep (chi u) (alpha u) (r0 u) (s0 u) (rv u) (vv u) (mu u)).2) x
      (keplerStep chi' alpha' r0' s0' rv' vv' mu').2 := by
  have T := fun w => C62_keplerStep (hc.tracks w) (ha.tracks w) (hr.tracks w) (hs.tracks w) (hrv.tracks w) (hvv.tracks w)
    (hmu.tracks w) (by simpa using h0) (by simpa using hm) (by simpa using hr0) (by simpa using hd)
  have R := fun w => (RD.compat w).keplerStep (hc.rd w) (ha.rd w) (hr.rd w) (hs.rd w) (hrv.rd w) (hvv.rd w) (hmu.rd w)
  exact ⟨.of_fwd (fun w => (R w).1) fun w => (T w).1, .of_fwd (fun w => (R w).2) fun w => (T w).2⟩

theorem C72_inclination (hh : IsGradV hv x hv') (h0 : hv x ≠ ⟨0, 0, 0⟩) (h1 : (hv x).x ≠ 0 ∨ (hv x).y ≠ 0) :
    IsGrad (fun u => inclination (hv u)) x (inclination hv') :=
  .of_fwd (fun w => (RD.compat w).inclination (hh.rd w)) fun w =>
    C62_inclination (hh.tracks w) (by simpa using h0) (by simpa using h1)

theorem C72_true_anomaly (hr : IsGradV rv x rv') (he : IsGradV ev x ev') (h0 : V3.cross (ev x) (rv x) ≠ ⟨0, 0, 0⟩) :
    IsGrad (fun u => true_anomaly (rv u) (ev u)) x (true_anomaly rv' ev') :=
  .of_fwd (fun w => (RD.compat w).true_anomaly (hr.rd w) (he.rd w)) fun w =>
    C62_true_anomaly (hr.tracks w) (he.tracks w) (by simpa using h0)

theorem C72_argument_of_periapsis (hn : IsGradV nv x nv') (he : IsGradV ev x ev')
    (h0 : V3.cross (nv x) (ev x) ≠ ⟨0, 0, 0⟩) :
    IsGrad (fun u => argument_of_periapsis (nv u) (ev u)) x (argument_of_periapsis nv' ev') :=
  .of_fwd (fun w => (RD.compat w).argument_of_periapsis (hn.rd w) (he.rd w)) fun w =>
    C62_argument_of_periapsis (hn.tracks w) (he.tracks w) (by simpa using h0)

theorem C72_right_ascension (hn : IsGradV nv x nv') (h0 : (nv x).y ≠ 0 ∨ (nv x).x < 0) :
    IsGrad (fun u => right_ascension (nv u)) x (right_ascension nv') :=
  .of_fwd (fun w => (RD.compat w).right_ascension (hn.rd w)) fun w =>
    C62_right_ascension (hn.tracks w) (by simpa using h0)

theorem C72_node_vec (hh : IsGradV hv x hv') : IsGradV (fun u => node_vec (hv u)) x (node_vec hv') :=
  .of_fwd (d := fun w => node_vec (fwdV w hv'))
    (fun w => (RD.compat w).cross (u := ⟨Nat.cast 0, Nat.cast 0, Nat.cast 1⟩) (u' := ⟨Nat.cast 0, Nat.cast 0, Nat.cast 1⟩)
      ⟨(RD.compat w).cast 0, (RD.compat w).cast 0, (RD.compat w).cast 1⟩ (hh.rd w))
    fun w => TracksV.cross (g := fun _ => ⟨(0 : ℕ), (0 : ℕ), (1 : ℕ)⟩) ⟨.nat 0, .nat 0, .nat 1⟩ (hh.tracks w)

/-- `rv2coe` away from the circular, equatorial and apsidal degeneracies. -/
theorem C72_rv2coe (hr : IsGradV rv x rv') (hv : IsGradV vv x vv') (hmu : IsGrad mu x mu') (h0 : 0 < mu x)
    (h1 : rv x ≠ ⟨0, 0, 0⟩)
    (h2 : (angular_momentum (rv x) (vv x)).x ≠ 0 ∨ (angular_momentum (rv x) (vv x)).y ≠ 0)
    (h3 : eccentricity_vector (rv x) (vv x) (mu x) ≠ ⟨0, 0, 0⟩)
    (h4 : (node_vec (angular_momentum (rv x) (vv x))).y ≠ 0 ∨ (node_vec (angular_momentum (rv x) (vv x))).x < 0)
    (h5 : V3.cross (node_vec (angular_momentum (rv x) (vv x))) (eccentricity_vector (rv x) (vv x) (mu x)) ≠ ⟨0, 0, 0⟩)
    (h6 : V3.cross (eccentricity_vector (rv x) (vv x) (mu x)) (rv x) ≠ ⟨0, 0, 0⟩) :
    IsGrad (fun u => (rv2coe (rv u) (vv u) (mu u)).p) x (rv2coe rv' vv' mu').p ∧
    IsGrad (fun u => (rv2coe (rv u) (vv u) (mu u)).e) x (rv2coe rv' vv' mu').e ∧
    IsGrad (fun u => (rv2coe (rv u) (vv u) (mu u)).incl) x (rv2coe rv' vv' mu').incl ∧
    IsGrad (fun u => (rv2coe (rv u) (vv u) (mu u)).raan) x (rv2coe rv' vv' mu').raan ∧
    IsGrad (fun u => (rv2coe (rv u) (vv u) (mu u)).argp) x (rv2coe rv' vv' mu').argp ∧
    IsGrad (fun u => (rv2coe (rv u) (vv u) (mu u)).true_anom) x (rv2coe rv' vv' mu').true_anom := by
  have hh := C72_angular_momentum hr hv
  have he := C72_eccentricity_vector hr hv hmu h1 h0.ne'
  have hn := C72_node_vec hh
  have hne : angular_momentum (rv x) (vv x) ≠ ⟨0, 0, 0⟩ := by
    intro h; rw [h] at h2; simp at h2
  exact ⟨C72_semiparameter (C72_norm hh hne) hmu h0.ne', C72_norm he h3, C72_inclination hh hne h2,
    C72_right_ascension hn h4, C72_argument_of_periapsis hn he h5, C72_true_anomaly hr he h6⟩

theorem C72_rotmat (ha : IsGrad an x an') :
    IsGradM (fun u => rotmat3dx (an u)) x (rotmat3dx an') ∧ IsGradM (fun u => rotmat3dy (an u)) x (rotmat3dy an') ∧
    IsGradM (fun u => rotmat3dz (an u)) x (rotmat3dz an') := by
  have T := fun w => C62_rotmat (ha.tracks w)
  have X := fun w => (RD.compat w).rotmat3dx (ha.rd w)
  have Y := fun w => (RD.compat w).rotmat3dy (ha.rd w)
  have Z := fun w => (RD.compat w).rotmat3dz (ha.rd w)
  exact ⟨⟨.of_fwd (fun w => (X w).r0) fun w => (T w).1.r0, .of_fwd (fun w => (X w).r1) fun w => (T w).1.r1,
      .of_fwd (fun w => (X w).r2) fun w => (T w).1.r2⟩,
    ⟨.of_fwd (fun w => (Y w).r0) fun w => (T w).2.1.r0, .of_fwd (fun w => (Y w).r1) fun w => (T w).2.1.r1,
      .of_fwd (fun w => (Y w).r2) fun w => (T w).2.1.r2⟩,
    ⟨.of_fwd (fun w => (Z w).r0) fun w => (T w).2.2.r0, .of_fwd (fun w => (Z w).r1) fun w => (T w).2.2.r1,
      .of_fwd (fun w => (Z w).r2) fun w => (T w).2.2.r2⟩⟩

theorem C72_coe2rv (hp : IsGrad p x p') (he : IsGrad e x e') (hi : IsGrad i x i') (hΩ : IsGrad Ω x Ω')
    (hω : IsGrad ω x ω') (hf : IsGrad f x f') (hmu : IsGrad mu x mu') (h1 : 0 < p x) (h2 : 0 < mu x)
    (h3 : 1 + e x * Real.cos (f x) ≠ 0) :
    IsGradV (fun u => (coe2rv (p u) (e u) (i u) (Ω u) (ω u) (f u) (mu u)).1) x (coe2rv p' e' i' Ω' ω' f' mu').1 ∧
    IsGradV (fun u => (coe2rv (p u) (e u) (i u) (Ω u) (ω u) (f u) (mu u)).2) x (coe2rv p' e' i' Ω' ω' f' mu').2 := by
  have T := fun w => C62_coe2rv (hp.tracks w) (he.tracks w) (hi.tracks w) (hΩ.tracks w) (hω.tracks w) (hf.tracks w)
    (hmu.tracks w) (by simpa using h1) (by simpa using h2) (by simpa using h3)
  have R := fun w => (RD.compat w).coe2rv (hp.rd w) (he.rd w) (hi.rd w) (hΩ.rd w) (hω.rd w) (hf.rd w) (hmu.rd w)
  exact ⟨.of_fwd (fun w => (R w).1) fun w => (T w).1, .of_fwd (fun w => (R w).2) fun w => (T w).2⟩

theorem C72_nmax (hrp : IsGrad rp x rp') (h1 : IsGrad r1 x r1') (h2 : IsGrad r2 x r2') (ht : IsGrad t x t')
    (hmu : IsGrad mu x mu') (hne : r1 x ≠ r2 x) (hm : 0 < mu x) (hpos : 0 < max (r1 x) (r2 x) + rp x)
    (hj : ∀ k : ℤ, t x / (2 * Real.pi) * Real.sqrt (mu x / (1 / 2 * (max (r1 x) (r2 x) + rp x)) ^ 3) ≠ k) :
    IsGrad (fun u => nmax_by_periapsis (rp u) (r1 u) (r2 u) (t u) (mu u)) x (nmax_by_periapsis rp' r1' r2' t' mu') :=
  .of_fwd (fun w => (RD.compat w).nmax_by_periapsis (hrp.rd w) (h1.rd w) (h2.rd w) (ht.rd w) (hmu.rd w)) fun w =>
    C62_nmax (hrp.tracks w) (h1.tracks w) (h2.tracks w) (ht.tracks w) (hmu.tracks w) (by simpa using hne)
      (by simpa using hm) (by simpa using hpos) (by simpa using hj)

/-- Every entry of the traced `args` mapping carries its gradient. -/
def Spec.GradArgs (args : (ι → ℝ) → Args ℝ) (x : ι → ℝ) (args' : Args (Rev ι ℝ)) : Prop :=
  ∀ k, (args' k = none ∧ ∀ u, args u k = none) ∨ ∃ A q, args' k = some q ∧ (∀ u, args u k = some (A u)) ∧ IsGrad A x q

theorem Spec.GradArgs.rel {args : (ι → ℝ) → Args ℝ} {args' : Args (Rev ι ℝ)} (h : GradArgs args x args') (w : ι → ℝ)
    (k : String) : RelO (RD w) (args' k) ((args' k).map (fwd w)) := by
  rcases h k with ⟨h1, -⟩ | ⟨A, q, h1, -, h3⟩
  · rw [h1]; trivial
  · rw [h1]; exact h3.rd w

theorem Spec.GradArgs.get {args : (ι → ℝ) → Args ℝ} {args' : Args (Rev ι ℝ)} (h : GradArgs args x args') {k : String}
    {q : Rev ι ℝ} (hk : args' k = some q) : ∃ A, (∀ u, args u k = some (A u)) ∧ IsGrad A x q := by
  rcases h k with ⟨h1, -⟩ | ⟨A, q', h1, h2, h3⟩
  · rw [hk] at h1; cases h1
  · rw [hk] at h1; cases h1; exact ⟨A, h2, h3⟩

theorem relE_ok {γ δ : Type} {R : γ → δ → Prop} {a : Except PyErr γ} {b : Except PyErr δ} (h : RelE R a b) {d : δ}
    (hb : b = .ok d) : ∃ c, a = .ok c ∧ R c d := by
  subst hb
  cases a with
  | error e => exact h.elim
  | ok c => exact ⟨c, rfl, h⟩

theorem gradE {fR : (ι → ℝ) → Except PyErr (V3 ℝ)} {fr : Except PyErr (V3 (Rev ι ℝ))}
    {fd : (ι → ℝ) → Except PyErr (V3 (Dual ℝ))} (h1 : ∀ w, RelE (RelV (RD w)) fr (fd w))
    (h2 : ∀ w, ∃ g g', (∀ s, fR (line x w s) = .ok (g s)) ∧ fd w = .ok g' ∧ TracksV g 0 g')
    (h3 : ∀ u, ∃ c, fR u = .ok c) : ∃ G G', (∀ u, fR u = .ok (G u)) ∧ fr = .ok G' ∧ IsGradV G x G' := by
  choose G hG using h3
  choose g g' h4 h5 h6 using h2
  obtain ⟨G', hG', -⟩ := relE_ok (h1 0) (h5 0)
  refine ⟨G, G', hG, hG', .of_fwd (d := g') (fun w => ?_) fun w => ?_⟩
  · obtain ⟨c, hc, hR⟩ := relE_ok (h1 w) (h5 w)
    rw [hG'] at hc; cases hc; exact hR
  · have : g w = fun s => G (line x w s) := by
      funext s
      have := (h4 w s).symm.trans (hG _)
      exact Except.ok.inj this
    rw [← this]; exact h6 w

/-- The Jacobians of the accelerations with respect to state and parameters. -/
theorem C72_gravity (tD : Rev ι ℝ) (tR : (ι → ℝ) → ℝ) (rest' : List (Rev ι ℝ)) (rest : (ι → ℝ) → List ℝ)
    (hr : IsGradV rv x rv') (h0 : rv x ≠ ⟨0, 0, 0⟩) {args : (ι → ℝ) → Args ℝ} {args' : Args (Rev ι ℝ)}
    (hargs : GradArgs args x args') {m R : Rev ι ℝ} (km : args' "mu" = some m) (kR : args' "R_eq" = some R) :
    (∃ g g', (∀ u, point_mass_grav (tR u) ⟨rv u, rest u⟩ (args u) = .ok (g u)) ∧
      point_mass_grav tD ⟨rv', rest'⟩ args' = .ok g' ∧ IsGradV g x g') ∧
    (∀ J, args' "J2" = some J → ∃ g g', (∀ u, j2_acc (tR u) ⟨rv u, rest u⟩ (args u) = .ok (g u)) ∧
      j2_acc tD ⟨rv', rest'⟩ args' = .ok g' ∧ IsGradV g x g') ∧
    (∀ J, args' "J3" = some J → ∃ g g', (∀ u, j3_acc (tR u) ⟨rv u, rest u⟩ (args u) = .ok (g u)) ∧
      j3_acc tD ⟨rv', rest'⟩ args' = .ok g' ∧ IsGradV g x g') ∧
    (∀ J, args' "J4" = some J → ∃ g g', (∀ u, j4_acc (tR u) ⟨rv u, rest u⟩ (args u) = .ok (g u)) ∧
      j4_acc tD ⟨rv', rest'⟩ args' = .ok g' ∧ IsGradV g x g') := by
  obtain ⟨Am, am, gm⟩ := hargs.get km
  obtain ⟨AR, aR, gR⟩ := hargs.get kR
  have T := fun w (J : (ι → ℝ) → ℝ) (J' : Rev ι ℝ) (hJ : IsGrad J x J') =>
    C62_gravity (fwd w tD) (fun s => tR (line x w s)) (rest'.map (fwd w)) (fun s => rest (line x w s)) (hr.tracks w)
      (by simpa using h0) (args := fun s => args (line x w s)) (args' := fun k => (args' k).map (fwd w))
      (gm.tracks w) (hJ.tracks w) (gR.tracks w) (by simp [km]) (fun s => am _) (by simp [kR]) (fun s => aR _)
  refine ⟨?_, fun J kJ => ?_, fun J kJ => ?_, fun J kJ => ?_⟩
  · exact gradE (fun w => (RD.compat w).point_mass_grav (hr.rd w) (hargs.rel w)) (fun w => (T w _ _ gm).1)
      fun u => ⟨_, by simp only [point_mass_grav, Args.get, am u]; rfl⟩
  · obtain ⟨AJ, aJ, gJ⟩ := hargs.get kJ
    exact gradE (fun w => (RD.compat w).j2_acc (hr.rd w) (hargs.rel w))
      (fun w => (T w _ _ gJ).2.1 (by simp [kJ]) fun s => aJ _)
      fun u => ⟨_, by simp only [j2_acc, Args.get, am u, aJ u, aR u]; rfl⟩
  · obtain ⟨AJ, aJ, gJ⟩ := hargs.get kJ
    exact gradE (fun w => (RD.compat w).j3_acc (hr.rd w) (hargs.rel w))
      (fun w => (T w _ _ gJ).2.2.1 (by simp [kJ]) fun s => aJ _)
      fun u => ⟨_, by simp only [j3_acc, Args.get, am u, aJ u, aR u]; rfl⟩
  · obtain ⟨AJ, aJ, gJ⟩ := hargs.get kJ
    exact gradE (fun w => (RD.compat w).j4_acc (hr.rd w) (hargs.rel w))
      (fun w => (T w _ _ gJ).2.2.2 (by simp [kJ]) fun s => aJ _)
      fun u => ⟨_, by simp only [j4_acc, Args.get, am u, aJ u, aR u]; rfl⟩

/-- The radius event. -/
theorem C72_radius_islow (tD : Rev ι ℝ) (tR : (ι → ℝ) → ℝ) (rest' : List (Rev ι ℝ)) (rest : (ι → ℝ) → List ℝ)
    (hr : IsGradV rv x rv') (h0 : rv x ≠ ⟨0, 0, 0⟩) {args : (ι → ℝ) → Args ℝ} {args' : Args (Rev ι ℝ)}
    (hargs : GradArgs args x args') {m : Rev ι ℝ} (km : args' "rmin" = some m) :
    ∃ g g', (∀ u, radius_islow (tR u) ⟨rv u, rest u⟩ (args u) = .ok (g u)) ∧
      radius_islow tD ⟨rv', rest'⟩ args' = .ok g' ∧ IsGrad g x g' := by
  obtain ⟨Am, am, gm⟩ := hargs.get km
  refine ⟨fun u => V3.norm (rv u) - Am u, V3.norm rv' - m, fun u => ?_, ?_, ?_⟩
  · simp only [radius_islow, Args.get, am u]; rfl
  · simp only [radius_islow, Args.get, km]; rfl
  · exact .of_fwd (fun w => (RD.compat w).sub ((RD.compat w).norm (hr.rd w)) (gm.rd w)) fun w =>
      ((hr.tracks w).norm (by simpa using h0)).sub (gm.tracks w)

end

/-- Reverse mode transposes forward mode, also where the formulas are not smooth (no hypothesis on the values). -/
theorem C72_transpose (w : ι → ℝ) {chi al r1 r2 r3 t mu : Rev ι ℝ} {chi' al' r1' r2' r3' t' mu' : Dual ℝ}
    {r v r0 v0 : V3 (Rev ι ℝ)} {r' v' r0' v0' : V3 (Dual ℝ)} (hc : RD w chi chi') (ha : RD w al al') (h1 : RD w r1 r1')
    (h2 : RD w r2 r2') (h3 : RD w r3 r3') (ht : RD w t t') (hmu : RD w mu mu') (hr : RelV (RD w) r r')
    (hv : RelV (RD w) v v') (hr0 : RelV (RD w) r0 r0') (hv0 : RelV (RD w) v0 v0') :
    RD w (ufunc0 chi al) (ufunc0 chi' al') ∧ RD w (ufunc1 chi al) (ufunc1 chi' al') ∧
    RD w (ufunc2 chi al) (ufunc2 chi' al') ∧ RD w (ufunc3 chi al) (ufunc3 chi' al') ∧
    RD w (ufunc4 chi al) (ufunc4 chi' al') ∧ RD w (ufunc5 chi al) (ufunc5 chi' al') ∧
    RD w (nmax_by_periapsis r1 r2 r3 t mu) (nmax_by_periapsis r1' r2' r3' t' mu') ∧
    RelC (RD w) (rv2coe r v mu) (rv2coe r' v' mu') ∧
    RelB (RD w) (dxdx0 r v r0 v0 t mu) (dxdx0 r' v' r0' v0' t' mu') ∧
    (is_short_way r v r0 ↔ is_short_way r' v' r0') ∧ (pass_perigee r v r0 mu ↔ pass_perigee r' v' r0' mu') ∧
    (rp_islower_rmin r1 r v mu ↔ rp_islower_rmin r1' r' v' mu') :=
  have H := RD.compat w
  ⟨H.ufunc0 hc ha, H.ufunc1 hc ha, H.ufunc2 hc ha, H.ufunc3 hc ha, H.ufunc4 hc ha, H.ufunc5 hc ha,
    H.nmax_by_periapsis h1 h2 h3 ht hmu, H.rv2coe hr hv hmu, H.dxdx0 hr hv hr0 hv0 ht hmu,
    by rw [H.is_short_way hr hv hr0], by rw [H.pass_perigee hr hv hr0 hmu], by rw [H.rp_islower_rmin hr hv hmu h1]⟩

/-- The gradient with respect to `alpha` is lost at `alpha = 0`. -/
theorem C72_ufunc_refuted (c : ℝ) (hc : c ≠ 0) :
    (ufunc2 (Rev.input ![c, 0] 0) (Rev.input ![c, 0] 1)).grad 1 = 0 ∧
    HasDerivAt (fun a => ufunc2 c a) (-(c ^ 4 / 24)) 0 ∧
    ¬ IsGrad (fun u => ufunc2 (u 0) (u 1)) ![c, 0] (ufunc2 (Rev.input ![c, 0] 0) (Rev.input ![c, 0] 1)) := by
  have hd := (C62_ufunc_refuted c hc).2.2.1.2
  have hg : (ufunc2 (Rev.input ![c, 0] 0) (Rev.input ![c, 0] (1 : Fin 2))).grad 1 = 0 := by
    have h0 : (Rev.input ![c, 0] (1 : Fin 2)).val = (0 : ℝ) := rfl
    have l1 : JFun.lt (Nat.cast 0 : Rev (Fin 2) ℝ) (Rev.input ![c, 0] (1 : Fin 2)) = false := by
      show decide (((0 : ℕ) : ℝ) < 0) = false
      simp
    have l2 : JFun.lt (Rev.input ![c, 0] (1 : Fin 2)) (Nat.cast 0 : Rev (Fin 2) ℝ) = false := by
      show decide ((0 : ℝ) < ((0 : ℕ) : ℝ)) = false
      simp
    unfold ufunc2
    rw [l1, l2, if_neg (by simp), if_neg (by simp)]
    have I := C72_input ![c, 0] 0
    have g : IsGrad (fun u : Fin 2 → ℝ => u 0 ^ 2 / (2 : ℕ)) ![c, 0] (Rev.input ![c, 0] 0 ^ 2 / (Nat.cast 2)) :=
      .of_fwd (fun w => (RD.compat w).div ((RD.compat w).pow 2 (I.rd w)) ((RD.compat w).cast 2)) fun w =>
        ((I.tracks w).pow 2).div (Tracks.nat 2) (by norm_num)
    have := g.deriv ![0, 1]
    simp only [line, Fin.sum_univ_two] at this
    have h2 := this.unique (by simpa using hasDerivAt_const (0 : ℝ) (c ^ 2 / (2 : ℕ)))
    simpa using h2
  refine ⟨hg, hd, fun h => ?_⟩
  have h1 := h.deriv ![0, 1]
  have e : (fun s => ufunc2 (line ![c, 0] ![0, 1] s 0) (line ![c, 0] ![0, 1] s 1)) = fun a => ufunc2 c a := by
    funext s; simp [line]
  rw [e] at h1
  have := hd.unique h1
  simp [Fin.sum_univ_two, hg] at this
  exact hc this

/-- Non-trivial case: the orbit with position (1,0,0), velocity (0,1,0), mu = 1; the period as a function of the seven
inputs. -/
example : let x₀ : Fin 7 → ℝ := ![1, 0, 0, 0, 1, 0, 1]
    IsGrad (fun u => orb_period (semimajor_axis (V3.norm ⟨u 0, u 1, u 2⟩) (V3.norm ⟨u 3, u 4, u 5⟩) (u 6)) (u 6)) x₀
      (orb_period (semimajor_axis (V3.norm ⟨Rev.input x₀ 0, Rev.input x₀ 1, Rev.input x₀ 2⟩)
        (V3.norm ⟨Rev.input x₀ 3, Rev.input x₀ 4, Rev.input x₀ 5⟩) (Rev.input x₀ 6)) (Rev.input x₀ 6)) := by
  intro x₀
  have I := C72_input x₀
  have hr := C72_norm (rv := fun u => ⟨u 0, u 1, u 2⟩) (rv' := ⟨Rev.input x₀ 0, Rev.input x₀ 1, Rev.input x₀ 2⟩)
    ⟨I 0, I 1, I 2⟩ (by simp [x₀])
  have hv := C72_norm (rv := fun u => ⟨u 3, u 4, u 5⟩) (rv' := ⟨Rev.input x₀ 3, Rev.input x₀ 4, Rev.input x₀ 5⟩)
    ⟨I 3, I 4, I 5⟩ (by simp [x₀])
  have n1 : V3.norm (⟨x₀ 0, x₀ 1, x₀ 2⟩ : V3 ℝ) = 1 := by simp [V3.norm, V3.dot, x₀]
  have n2 : V3.norm (⟨x₀ 3, x₀ 4, x₀ 5⟩ : V3 ℝ) = 1 := by simp [V3.norm, V3.dot, x₀]
  have h6 : x₀ 6 = 1 := by simp [x₀]
  refine C72_orb_period (C72_semimajor_axis hr hv (I 6) ?_ ?_ ?_) (I 6) ?_ ?_
  · simp [n1]
  · simp [h6]
  · simp only [n1, n2, h6]; norm_num
  · simp only [semimajor_axis, n1, n2, h6]; norm_num
  · simp [h6]

/-- Non-trivial case: the J2 acceleration at (1,0,1) as a function of the position; `mu`, `J2`, `R_eq` constant. -/
example : let x₀ : Fin 3 → ℝ := ![1, 0, 1]
    let A : String → Option ℝ := fun k => if k = "mu" ∨ k = "R_eq" then some 1 else if k = "J2" then some (1 / 1000) else none
    ∃ g g', (∀ u, j2_acc 0 ⟨⟨u 0, u 1, u 2⟩, []⟩ A = .ok (g u)) ∧
      j2_acc (Rev.const 0) ⟨⟨Rev.input x₀ 0, Rev.input x₀ 1, Rev.input x₀ 2⟩, []⟩ (fun k => (A k).map Rev.const) = .ok g' ∧
      IsGradV g x₀ g' := by
  intro x₀ A
  have I := C72_input x₀
  refine (C72_gravity (x := x₀) (rv := fun u => ⟨u 0, u 1, u 2⟩) (Rev.const 0) (fun _ => 0) [] (fun _ => [])
    ⟨I 0, I 1, I 2⟩ (by simp [x₀]) (args := fun _ => A) (fun k => ?_) (m := Rev.const 1) (R := Rev.const 1)
    (by simp [A]) (by simp [A])).2.1 (Rev.const (1 / 1000)) (by simp [A])
  cases h : A k with
  | none => exact .inl ⟨by simp, fun _ => by simp [h]⟩
  | some c => exact .inr ⟨fun _ => c, Rev.const c, by simp, fun _ => by simp [h], C72_const c⟩

end Adx
