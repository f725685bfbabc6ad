import Verif.Props.C64c
import Verif.Props.C72
import Verif.Lemmas.RevXR

/-! # C82: exactly where a gradient taken in reverse mode is NaN

The model run on reverse-traced IEEE values (`Rev ι XR`). First part: on the smooth domain the pullback of every function
without a loop is finite at every finite cotangent, and is the exact-arithmetic one of C72, so no theorem there rests on
`x / 0 = 0`. Second part (C82b): the states where the value is finite and the gradient is NaN.

The simplification of `Model/Rev` (contributions added at the inputs, not at the first common ancestor) does not matter here:
sums of finite contributions are finite either way, and NaN is absorbing either way. -/

namespace Adx
open XR (fin pinf ninf nan)
open Spec
variable {ι : Type}

/-- The values of a traced vector. -/
def V3.rvals (v : V3 (Rev ι ℝ)) : V3 ℝ := ⟨v.x.val, v.y.val, v.z.val⟩

variable {a mu P r v p e f h U0 U1 U2 U4 U5 s0 sg r0 chi alpha E M H N t dt F G C Ft Gt incl raan argp an rp r1 r2 tof : Rev ι XR}
variable {a' mu' P' r' v' p' e' f' h' U0' U1' U2' U4' U5' s0' sg' r0' chi' alpha' E' M' H' N' t' dt' F' G' C' Ft' Gt' incl' raan'
  argp' an' rp' r1' r2' tof' : Rev ι ℝ}
variable {rv vv ev nv hv R V : V3 (Rev ι XR)} {rv' vv' ev' nv' hv' R' V' : V3 (Rev ι ℝ)}

/-- An input over the IEEE values and the same input over the reals; a constant likewise. -/
theorem C82_input [DecidableEq ι] (x : ι → ℝ) (i : ι) : RFin (Rev.input (fun j => fin (x j)) i) (Rev.input x i) :=
  ⟨rfl, fun ct j => by simp only []; split_ifs <;> simp⟩

theorem C82_const (c : ℝ) : RFin (Rev.const (ι := ι) (fin c)) (Rev.const c) := ⟨rfl, trivial⟩

/-- What a finite traced value is worth: its gradient is the exact-arithmetic gradient. -/
theorem C82_grad [Fintype ι] {F : (ι → ℝ) → ℝ} {x : ι → ℝ} (h : RFin a a') (hg : IsGrad F x a') :
    a.val = fin (F x) ∧ ∀ w, HasDerivAt (fun s => F (line x w s)) (∑ i, a'.grad i * w i) 0 ∧ ∀ i, a.grad i = fin (a'.grad i) :=
  ⟨by rw [h.1, hg.val], fun w => ⟨hg.deriv w, h.grad⟩⟩

/-! ### `_orb_integrals.py` -/

theorem C82_orb_period (ha : RFin a a') (hm : RFin mu mu') (h1 : 0 < a'.val) (h2 : 0 < mu'.val) :
    RFin (orb_period a mu) (orb_period a' mu') := by
  have h3 : 0 < (a' ^ 3 / mu').val := div_pos (pow_pos h1 3) h2
  have h4 := h2.ne'
  unfold orb_period
  rfin

theorem C82_a_from_period (hP : RFin P P') (hm : RFin mu mu') (h1 : P'.val ≠ 0) (h2 : 0 < mu'.val) :
    RFin (a_from_period P mu) (a_from_period P' mu') := by
  have h3 : (JFun.pi ^ 2 : Rev ι ℝ).val ≠ 0 := pow_ne_zero 2 Real.pi_ne_zero
  have h4 : ((4 : ℕ) : Rev ι ℝ).val ≠ 0 := by show ((4 : ℕ) : ℝ) ≠ 0; norm_num
  have hd : 0 < (P' ^ 2 * mu' / ((4 : ℕ) : Rev ι ℝ) / JFun.pi ^ 2).val := by
    show 0 < P'.val ^ 2 * mu'.val / ((4 : ℕ) : ℝ) / Real.pi ^ 2
    have := Real.pi_pos
    have := pow_pos (abs_pos.2 h1) 2; rw [sq_abs] at this
    positivity
  unfold a_from_period
  rfin

theorem C82_mean_motion (hP : RFin P P') (h1 : P'.val ≠ 0) : RFin (mean_motion P) (mean_motion P') := by
  unfold mean_motion
  rfin

theorem C82_angular_momentum (hr : RFinV rv rv') (hv : RFinV vv vv') :
    RFinV (angular_momentum rv vv) (angular_momentum rv' vv') := by
  unfold angular_momentum
  rfin

theorem C82_semimajor_axis (hr : RFin r r') (hv : RFin v v') (hm : RFin mu mu') (h1 : r'.val ≠ 0) (h2 : mu'.val ≠ 0)
    (hp : 2 / r'.val - v'.val ^ 2 / mu'.val ≠ 0) : RFin (semimajor_axis r v mu) (semimajor_axis r' v' mu') := by
  have h : (((2 : ℕ) : Rev ι ℝ) / r' - v' ^ 2 / mu').val ≠ 0 := by
    show ((2 : ℕ) : ℝ) / r'.val - v'.val ^ 2 / mu'.val ≠ 0
    simpa using hp
  unfold semimajor_axis
  rfin

theorem rnorm_val : (V3.norm rv').val = V3.norm rv'.rvals := rfl

theorem rnorm_pos (h : rv'.rvals ≠ ⟨0, 0, 0⟩) : 0 < (V3.norm rv').val := by
  rw [rnorm_val]; exact (V3.norm_pos _).2 h

theorem C82_norm (hr : RFinV rv rv') (h : rv'.rvals ≠ ⟨0, 0, 0⟩) : RFin (V3.norm rv) (V3.norm rv') := by
  have hd : 0 < (V3.dot rv' rv').val := by
    have := Real.sqrt_pos.1 (rnorm_pos h)
    exact this
  unfold V3.norm
  rfin

theorem C82_eccentricity_vector (hr : RFinV rv rv') (hv : RFinV vv vv') (hm : RFin mu mu') (h1 : rv'.rvals ≠ ⟨0, 0, 0⟩)
    (h2 : mu'.val ≠ 0) : RFinV (eccentricity_vector rv vv mu) (eccentricity_vector rv' vv' mu') := by
  have hn := C82_norm hr h1
  have hn0 := (rnorm_pos h1).ne'
  have hh := C82_angular_momentum hr hv
  unfold eccentricity_vector
  rfin

theorem C82_semiparameter (hh : RFin h h') (hm : RFin mu mu') (h2 : mu'.val ≠ 0) :
    RFin (semiparameter h mu) (semiparameter h' mu') := by
  unfold semiparameter
  rfin

theorem C82_equ_of_orbit (hp : RFin p p') (he : RFin e e') (hf : RFin f f') (h0 : 1 + e'.val * Real.cos f'.val ≠ 0) :
    RFin (equ_of_orbit p e f) (equ_of_orbit p' e' f') := by
  have h : (((1 : ℕ) : Rev ι ℝ) + e' * JFun.cos f').val ≠ 0 := by
    show ((1 : ℕ) : ℝ) + e'.val * Real.cos f'.val ≠ 0
    simpa using h0
  unfold equ_of_orbit
  rfin

theorem C82_equ_of_orb_uvi (h0 : RFin U0 U0') (h1 : RFin U1 U1') (h2 : RFin U2 U2') (hr : RFin r r') (hs : RFin s0 s0') :
    RFin (equ_of_orb_uvi U0 U1 U2 r s0) (equ_of_orb_uvi U0' U1' U2' r' s0') := by
  unfold equ_of_orb_uvi
  rfin

theorem C82_sizes (ha : RFin a a') (hp : RFin p p') (he : RFin e e') :
    (1 + e'.val ≠ 0 → RFin (radius_periapsis p e) (radius_periapsis p' e')) ∧
    (1 - e'.val ≠ 0 → RFin (radius_apoapsis p e) (radius_apoapsis p' e')) ∧
    RFin (semipara_from_ae a e) (semipara_from_ae a' e') ∧
    (1 - e'.val ^ 2 ≠ 0 → RFin (a_from_pe p e) (a_from_pe p' e')) := by
  refine ⟨fun h => ?_, fun h => ?_, ?_, fun h => ?_⟩
  · have k : (((1 : ℕ) : Rev ι ℝ) + e').val ≠ 0 := by show ((1 : ℕ) : ℝ) + e'.val ≠ 0; simpa using h
    unfold radius_periapsis
    rfin
  · have k : (((1 : ℕ) : Rev ι ℝ) - e').val ≠ 0 := by show ((1 : ℕ) : ℝ) - e'.val ≠ 0; simpa using h
    unfold radius_apoapsis
    rfin
  · unfold semipara_from_ae
    rfin
  · have k : (((1 : ℕ) : Rev ι ℝ) - e' ^ 2).val ≠ 0 := by show ((1 : ℕ) : ℝ) - e'.val ^ 2 ≠ 0; simpa using h
    unfold a_from_pe
    rfin

/-! ### `_uniformulas.py`, `_lagrange.py` -/

theorem C82_sigma_fn (hr : RFinV rv rv') (hv : RFinV vv vv') (hm : RFin mu mu') (h2 : 0 < mu'.val) :
    RFin (sigma_fn rv vv mu) (sigma_fn rv' vv' mu') := by
  have h : (JFun.sqrt mu').val ≠ 0 := (Real.sqrt_pos.2 h2).ne'
  unfold sigma_fn
  rfin

/-- The six universal functions have finite gradients everywhere, parabolas included. -/
theorem C82_ufunc (hc : RFin chi chi') (ha : RFin alpha alpha') :
    RFin (ufunc0 chi alpha) (ufunc0 chi' alpha') ∧ RFin (ufunc1 chi alpha) (ufunc1 chi' alpha') ∧
    RFin (ufunc2 chi alpha) (ufunc2 chi' alpha') ∧ RFin (ufunc3 chi alpha) (ufunc3 chi' alpha') ∧
    RFin (ufunc4 chi alpha) (ufunc4 chi' alpha') ∧ RFin (ufunc5 chi alpha) (ufunc5 chi' alpha') := by
  have lit : ∀ n : ℕ, n ≠ 0 → ((n : ℕ) : Rev ι ℝ).val ≠ 0 := fun n hn => by
    show (n : ℝ) ≠ 0
    exact_mod_cast hn
  have l2 := lit 2 (by norm_num)
  have l6 := lit 6 (by norm_num)
  have l24 := lit 24 (by norm_num)
  have l120 := lit 120 (by norm_num)
  have e1 := RFin.lt (RFin.nat 0) ha
  have e2 := RFin.lt ha (RFin.nat 0)
  rcases lt_trichotomy alpha'.val 0 with h | h | h
  · have c1 : JFun.lt ((0 : ℕ) : Rev ι ℝ) alpha' = false :=
      decide_eq_false (show ¬((0 : ℕ) : ℝ) < alpha'.val by push_cast; linarith)
    have c2 : JFun.lt alpha' ((0 : ℕ) : Rev ι ℝ) = true :=
      decide_eq_true (show alpha'.val < ((0 : ℕ) : ℝ) by push_cast; exact h)
    have hp : 0 < (-alpha').val := by show 0 < -alpha'.val; linarith
    have hp' := hp.ne'
    have h' := h.ne
    have hn : (JFun.sqrt (-alpha')).val ≠ 0 := (Real.sqrt_pos.2 hp).ne'
    have k2 : (((2 : ℕ) : Rev ι ℝ) * alpha' ^ 2).val ≠ 0 := mul_ne_zero l2 (pow_ne_zero 2 h.ne)
    have k6 : (((6 : ℕ) : Rev ι ℝ) * alpha' ^ 3).val ≠ 0 := mul_ne_zero l6 (pow_ne_zero 3 h.ne)
    simp only [ufunc0, ufunc1, ufunc2, ufunc3, ufunc4, ufunc5, e1, e2, c1, c2, if_true, if_false, Bool.false_eq_true]
    refine ⟨?_, ?_, ?_, ?_, ?_, ?_⟩ <;> rfin
  · have c1 : JFun.lt ((0 : ℕ) : Rev ι ℝ) alpha' = false :=
      decide_eq_false (show ¬((0 : ℕ) : ℝ) < alpha'.val by push_cast; linarith)
    have c2 : JFun.lt alpha' ((0 : ℕ) : Rev ι ℝ) = false :=
      decide_eq_false (show ¬alpha'.val < ((0 : ℕ) : ℝ) by push_cast; linarith)
    simp only [ufunc0, ufunc1, ufunc2, ufunc3, ufunc4, ufunc5, e1, e2, c1, c2, if_false, Bool.false_eq_true]
    refine ⟨?_, ?_, ?_, ?_, ?_, ?_⟩ <;> rfin
  · have c1 : JFun.lt ((0 : ℕ) : Rev ι ℝ) alpha' = true :=
      decide_eq_true (show ((0 : ℕ) : ℝ) < alpha'.val by push_cast; exact h)
    have h' := h.ne'
    have hn : (JFun.sqrt alpha').val ≠ 0 := (Real.sqrt_pos.2 h).ne'
    have k2 : (((2 : ℕ) : Rev ι ℝ) * alpha' ^ 2).val ≠ 0 := mul_ne_zero l2 (pow_ne_zero 2 h.ne')
    have k6 : (((6 : ℕ) : Rev ι ℝ) * alpha' ^ 3).val ≠ 0 := mul_ne_zero l6 (pow_ne_zero 3 h.ne')
    simp only [ufunc0, ufunc1, ufunc2, ufunc3, ufunc4, ufunc5, e1, c1, if_true]
    refine ⟨?_, ?_, ?_, ?_, ?_, ?_⟩ <;> rfin

theorem C82_lagrange (h1 : RFin U1 U1') (h2 : RFin U2 U2') (hs : RFin s0 s0') (hr : RFin r r') (hr0 : RFin r0 r0')
    (hm : RFin mu mu') (k1 : r'.val ≠ 0) (k2 : r0'.val ≠ 0) (k3 : 0 < mu'.val) :
    RFin (lagrange_F U2 r0) (lagrange_F U2' r0') ∧ RFin (lagrange_G U1 U2 s0 r0 mu) (lagrange_G U1' U2' s0' r0' mu') ∧
    RFin (lagrange_Ft U1 r r0 mu) (lagrange_Ft U1' r' r0' mu') ∧ RFin (lagrange_Gt U2 r) (lagrange_Gt U2' r') := by
  have h : (JFun.sqrt mu').val ≠ 0 := (Real.sqrt_pos.2 k3).ne'
  have h' : (r' * r0').val ≠ 0 := mul_ne_zero k1 k2
  unfold lagrange_F lagrange_G lagrange_Ft lagrange_Gt
  refine ⟨?_, ?_, ?_, ?_⟩ <;> rfin

/-! ### `_kep_equ.py` -/

theorem C82_kepler_equ (hE : RFin E E') (he : RFin e e') (hM : RFin M M') (hH : RFin H H') (hN : RFin N N') :
    RFin (kepler_equ_elps E e M) (kepler_equ_elps E' e' M') ∧ RFin (dE E e) (dE E' e') ∧
    RFin (kepler_equ_hypb H e N) (kepler_equ_hypb H' e' N') ∧ RFin (dH H e) (dH H' e') := by
  unfold kepler_equ_elps dE kepler_equ_hypb dH
  refine ⟨?_, ?_, ?_, ?_⟩ <;> rfin

theorem C82_mean_anomaly (ha : RFin a a') (ht : RFin t t') (hm : RFin mu mu') (h2 : 0 < mu'.val) :
    (0 < a'.val → RFin (mean_anomaly_elps a t mu) (mean_anomaly_elps a' t' mu')) ∧
    (a'.val < 0 → RFin (mean_anomaly_hypb a t mu) (mean_anomaly_hypb a' t' mu')) := by
  constructor
  · intro h0
    have h1 : (a' ^ 3).val ≠ 0 := (pow_pos h0 3).ne'
    have h2 : 0 < (mu' / a' ^ 3).val := div_pos h2 (pow_pos h0 3)
    unfold mean_anomaly_elps
    rfin
  · intro h0
    have h0 : 0 < (-a' ^ 3).val := by
      show 0 < -a'.val ^ 3
      have := Odd.pow_neg (by decide : Odd 3) h0; linarith
    have h1 := h0.ne'
    have h2 : 0 < (mu' / -a' ^ 3).val := div_pos h2 h0
    unfold mean_anomaly_hypb
    rfin

theorem C82_generalized_anomaly (ha : RFin alpha alpha') (hs : RFin sg sg') (hs0 : RFin s0 s0') (ht : RFin t t')
    (hm : RFin mu mu') (h2 : 0 < mu'.val) :
    RFin (generalized_anomaly alpha sg s0 t mu) (generalized_anomaly alpha' sg' s0' t' mu') := by
  unfold generalized_anomaly
  rfin

theorem C82_kepler_equ_uni (hc : RFin chi chi') (ha : RFin alpha alpha') (hr : RFin r0 r0') (hs : RFin s0 s0')
    (ht : RFin t t') (hm : RFin mu mu') (h2 : 0 < mu'.val) :
    RFin (kepler_equ_uni chi alpha r0 s0 t mu) (kepler_equ_uni chi' alpha' r0' s0' t' mu') ∧
    RFin (dchi chi alpha r0 s0) (dchi chi' alpha' r0' s0') := by
  obtain ⟨u0, u1, u2, u3, -, -⟩ := C82_ufunc hc ha
  unfold kepler_equ_uni dchi equ_of_orb_uvi
  refine ⟨?_, ?_⟩ <;> rfin

theorem C82_C_func (hc : RFin chi chi') (h2 : RFin U2 U2') (h4 : RFin U4 U4') (h5 : RFin U5 U5') (ht : RFin t t')
    (hm : RFin mu mu') (hp : 0 < mu'.val) : RFin (C_func chi U2 U4 U5 t mu) (C_func chi' U2' U4' U5' t' mu') := by
  have h : (JFun.sqrt mu').val ≠ 0 := (Real.sqrt_pos.2 hp).ne'
  unfold C_func
  rfin

/-- One propagation step, given the universal variable: the part of `kepler` after the loop. -/
theorem C82_keplerStep (hc : RFin chi chi') (ha : RFin alpha alpha') (hr : RFin r0 r0') (hs : RFin s0 s0')
    (hrv : RFinV rv rv') (hvv : RFinV vv vv') (hm : RFin mu mu') (h2 : 0 < mu'.val) (hr0 : r0'.val ≠ 0)
    (hd : dchi chi'.val alpha'.val r0'.val s0'.val ≠ 0) :
    RFinV (keplerStep chi alpha r0 s0 rv vv mu).1 (keplerStep chi' alpha' r0' s0' rv' vv' mu').1 ∧
    RFinV (keplerStep chi alpha r0 s0 rv vv mu).2 (keplerStep chi' alpha' r0' s0' rv' vv' mu').2 := by
  obtain ⟨u0, u1, u2, -, -, -⟩ := C82_ufunc hc ha
  have hcompat : Compat (fun (x : Rev ι ℝ) (y : ℝ) => x.val = y) := by
    constructor <;> intros <;> subst_vars <;> rfl
  have hrad : (equ_of_orb_uvi (ufunc0 chi' alpha') (ufunc1 chi' alpha') (ufunc2 chi' alpha') r0' s0').val ≠ 0 := by
    have : (dchi chi' alpha' r0' s0').val = dchi chi'.val alpha'.val r0'.val s0'.val :=
      hcompat.dchi rfl rfl rfl rfl
    rw [dchi] at this
    rw [this]; exact hd
  have hu := C82_equ_of_orb_uvi u0 u1 u2 hr hs
  obtain ⟨l1, l2, l3, l4⟩ := C82_lagrange u1 u2 hs hu hr hm hrad hr0 h2
  unfold keplerStep lagrange_prop
  refine ⟨?_, ?_⟩ <;> rfin

/-! ### Rotations, `coe2rv`, `nmax_by_periapsis` -/

theorem C82_rotmat (ha : RFin an an') :
    RFinM (rotmat3dx an) (rotmat3dx an') ∧ RFinM (rotmat3dy an) (rotmat3dy an') ∧ RFinM (rotmat3dz an) (rotmat3dz an') := by
  unfold rotmat3dx rotmat3dy rotmat3dz
  refine ⟨⟨⟨?_, ?_, ?_⟩, ⟨?_, ?_, ?_⟩, ⟨?_, ?_, ?_⟩⟩, ⟨⟨?_, ?_, ?_⟩, ⟨?_, ?_, ?_⟩, ⟨?_, ?_, ?_⟩⟩,
    ⟨⟨?_, ?_, ?_⟩, ⟨?_, ?_, ?_⟩, ⟨?_, ?_, ?_⟩⟩⟩ <;> dsimp only <;> rfin

theorem C82_coe2rv (hp : RFin p p') (he : RFin e e') (hi : RFin incl incl') (hΩ : RFin raan raan') (hω : RFin argp argp')
    (hf : RFin f f') (hm : RFin mu mu') (h1 : 0 < p'.val) (h2 : 0 < mu'.val) (h3 : 1 + e'.val * Real.cos f'.val ≠ 0) :
    RFinV (coe2rv p e incl raan argp f mu).1 (coe2rv p' e' incl' raan' argp' f' mu').1 ∧
    RFinV (coe2rv p e incl raan argp f mu).2 (coe2rv p' e' incl' raan' argp' f' mu').2 := by
  have h4 : (((1 : ℕ) : Rev ι ℝ) + e' * JFun.cos f').val ≠ 0 := by
    show ((1 : ℕ) : ℝ) + e'.val * Real.cos f'.val ≠ 0
    simpa using h3
  have h5 : 0 < (mu' / p').val := div_pos h2 h1
  have h6 := h1.ne'
  have v1 : RFinV (⟨JFun.cos f, JFun.sin f, ((0 : ℕ) : Rev ι XR)⟩ : V3 _) ⟨JFun.cos f', JFun.sin f', ((0 : ℕ) : Rev ι ℝ)⟩ :=
    ⟨hf.cos, hf.sin, RFin.nat 0⟩
  have v2 : RFinV (⟨-JFun.sin f, e + JFun.cos f, ((0 : ℕ) : Rev ι XR)⟩ : V3 _)
      ⟨-JFun.sin f', e' + JFun.cos f', ((0 : ℕ) : Rev ι ℝ)⟩ := ⟨hf.sin.neg, he.add hf.cos, RFin.nat 0⟩
  have r1 := (C82_rotmat hΩ).2.2
  have r2 := (C82_rotmat hi).1
  have r3 := (C82_rotmat hω).2.2
  unfold coe2rv perifocalPos perifocalVel perifocalToInertial
  refine ⟨?_, ?_⟩ <;> dsimp only <;> rfin

theorem C82_nmax (hrp : RFin rp rp') (h1 : RFin r1 r1') (h2 : RFin r2 r2') (ht : RFin tof tof') (hm : RFin mu mu')
    (k1 : 0 < mu'.val) (k2 : 0 < max r1'.val r2'.val + rp'.val) :
    RFin (nmax_by_periapsis rp r1 r2 tof mu) (nmax_by_periapsis rp' r1' r2' tof' mu') := by
  have l2 : ((2 : ℕ) : Rev ι ℝ).val ≠ 0 := by show ((2 : ℕ) : ℝ) ≠ 0; norm_num
  have hpi : (((2 : ℕ) : Rev ι ℝ) * JFun.pi).val ≠ 0 := by
    show ((2 : ℕ) : ℝ) * Real.pi ≠ 0
    have := Real.pi_pos
    positivity
  have ha : 0 < ((((1 : ℕ) : Rev ι ℝ) / ((2 : ℕ) : Rev ι ℝ) * (JFun.maximum r1' r2' + rp')) ^ 3).val := by
    show 0 < (((1 : ℕ) : ℝ) / ((2 : ℕ) : ℝ) * (max r1'.val r2'.val + rp'.val)) ^ 3
    positivity
  have ha' := ha.ne'
  have hq : 0 < (mu' / (((1 : ℕ) : Rev ι ℝ) / ((2 : ℕ) : Rev ι ℝ) * (JFun.maximum r1' r2' + rp')) ^ 3).val := div_pos k1 ha
  unfold nmax_by_periapsis
  dsimp only
  rfin

/-! ### The transition matrix -/

theorem C82_prpr0 (hR : RFinV R R') (hV : RFinV V V') (hr : RFinV rv rv') (hv : RFinV vv vv') (hF : RFin F F') (hC : RFin C C')
    (hm : RFin mu mu') (k1 : R'.rvals ≠ ⟨0, 0, 0⟩) (k2 : rv'.rvals ≠ ⟨0, 0, 0⟩) (k3 : mu'.val ≠ 0) :
    RFinM (prpr0 R V rv vv F C mu) (prpr0 R' V' rv' vv' F' C' mu') := by
  have n1 := C82_norm hR k1
  have n2 := C82_norm hr k2
  have h0 := (rnorm_pos k2).ne'
  have h2 : (V3.norm rv' ^ 2).val ≠ 0 := pow_ne_zero 2 h0
  unfold prpr0
  dsimp only
  rfin

theorem C82_prpv0 (hR : RFinV R R') (hV : RFinV V V') (hr : RFinV rv rv') (hv : RFinV vv vv') (hF : RFin F F') (hG : RFin G G')
    (hC : RFin C C') (hm : RFin mu mu') (k2 : rv'.rvals ≠ ⟨0, 0, 0⟩) (k3 : mu'.val ≠ 0) :
    RFinM (prpv0 R V rv vv F G C mu) (prpv0 R' V' rv' vv' F' G' C' mu') := by
  have n2 := C82_norm hr k2
  unfold prpv0
  rfin

theorem C82_pvpr0 (hR : RFinV R R') (hV : RFinV V V') (hr : RFinV rv rv') (hv : RFinV vv vv') (hF : RFin Ft Ft') (hC : RFin C C')
    (hm : RFin mu mu') (k1 : R'.rvals ≠ ⟨0, 0, 0⟩) (k2 : rv'.rvals ≠ ⟨0, 0, 0⟩) (k3 : mu'.val ≠ 0) :
    RFinM (pvpr0 R V rv vv Ft C mu) (pvpr0 R' V' rv' vv' Ft' C' mu') := by
  have n1 := C82_norm hR k1
  have n2 := C82_norm hr k2
  have h0 := (rnorm_pos k2).ne'
  have h1 := (rnorm_pos k1).ne'
  have h2 : (V3.norm rv' ^ 2).val ≠ 0 := pow_ne_zero 2 h0
  have h3 : (V3.norm R' ^ 2).val ≠ 0 := pow_ne_zero 2 h1
  unfold pvpr0
  dsimp only
  rfin

theorem C82_pvpv0 (hR : RFinV R R') (hV : RFinV V V') (hr : RFinV rv rv') (hv : RFinV vv vv') (hF : RFin F F') (hG : RFin Gt Gt')
    (hC : RFin C C') (hm : RFin mu mu') (k1 : R'.rvals ≠ ⟨0, 0, 0⟩) (k2 : rv'.rvals ≠ ⟨0, 0, 0⟩) (k3 : mu'.val ≠ 0) :
    RFinM (pvpv0 R V rv vv F Gt C mu) (pvpv0 R' V' rv' vv' F' Gt' C' mu') := by
  have n1 := C82_norm hR k1
  have n2 := C82_norm hr k2
  have h1 := (rnorm_pos k1).ne'
  have h3 : (V3.norm R' ^ 2).val ≠ 0 := pow_ne_zero 2 h1
  unfold pvpv0
  dsimp only
  rfin

/-- `alpha` has a finite gradient off the parabolas. -/
theorem C82_alpha (hr : RFinV rv rv') (hv : RFinV vv vv') (hm : RFin mu mu') (k : 0 < mu'.val) (k1 : rv'.rvals ≠ ⟨0, 0, 0⟩)
    (k2 : vv'.rvals ≠ ⟨0, 0, 0⟩) (k3 : alphaOf rv'.rvals vv'.rvals mu'.val ≠ 0) :
    RFin (((1 : ℕ) : Rev ι XR) / semimajor_axis (V3.norm rv) (V3.norm vv) mu)
      (((1 : ℕ) : Rev ι ℝ) / semimajor_axis (V3.norm rv') (V3.norm vv') mu') := by
  have hp : 2 / (V3.norm rv').val - (V3.norm vv').val ^ 2 / mu'.val ≠ 0 := by
    rw [rnorm_val, rnorm_val]
    simpa [alphaOf, semimajor_axis] using k3
  have hsm : (semimajor_axis (V3.norm rv') (V3.norm vv') mu').val ≠ 0 := by
    show ((1 : ℕ) : ℝ) / (((2 : ℕ) : ℝ) / (V3.norm rv').val - (V3.norm vv').val ^ 2 / mu'.val) ≠ 0
    exact div_ne_zero (by norm_num) (by simpa using hp)
  have := C82_semimajor_axis (C82_norm hr k1) (C82_norm hv k2) hm (rnorm_pos k1).ne' k.ne' hp
  rfin

/-- C82: off the parabolas every entry of `dxdx0` has a finite gradient with respect to both states, the time and `mu`. -/
theorem C82_dxdx0 (hR : RFinV R R') (hV : RFinV V V') (hr : RFinV rv rv') (hv : RFinV vv vv') (ht : RFin dt dt')
    (hm : RFin mu mu') (k : 0 < mu'.val) (k0 : R'.rvals ≠ ⟨0, 0, 0⟩) (k1 : rv'.rvals ≠ ⟨0, 0, 0⟩)
    (k2 : vv'.rvals ≠ ⟨0, 0, 0⟩) (k3 : alphaOf rv'.rvals vv'.rvals mu'.val ≠ 0) :
    RelB RFin (dxdx0 R V rv vv dt mu) (dxdx0 R' V' rv' vv' dt' mu') := by
  have hA := C82_alpha hr hv hm k k1 k2 k3
  have hs := C82_sigma_fn hR hV hm k
  have hs0 := C82_sigma_fn hr hv hm k
  have hc := C82_generalized_anomaly hA hs hs0 ht hm k
  obtain ⟨-, u1, u2, -, u4, u5⟩ := C82_ufunc hc hA
  have hC := C82_C_func hc u2 u4 u5 ht hm k
  obtain ⟨l1, l2, l3, l4⟩ := C82_lagrange u1 u2 hs0 (C82_norm hR k0) (C82_norm hr k1) hm (rnorm_pos k0).ne' (rnorm_pos k1).ne' k
  exact ⟨C82_prpr0 hR hV hr hv l1 hC hm k0 k1 k.ne', C82_prpv0 hR hV hr hv l1 l2 hC hm k1 k.ne',
    C82_pvpr0 hR hV hr hv l3 hC hm k0 k1 k.ne', C82_pvpv0 hR hV hr hv l1 l4 hC hm k0 k1 k.ne'⟩

end Adx
