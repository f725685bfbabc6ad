import Verif.Lemmas.Hess
import Verif.Lemmas.RealVec
import Verif.Props.C07
import Verif.Model.Kepler
import Verif.Model.OrbElements
import Verif.Model.StateTrans
import Verif.Model.Gravity
import Verif.Model.PathCheck

/-! # C79: Hessians and derivatives of gradients, forward mode over reverse mode

`jax.hessian(f)` is `jax.jacfwd(jax.jacrev(f))`. Every formula, evaluated in reverse mode over `n`-fold traced values, returns
the gradient together with all its derivatives up to order `n` (`Spec/Hess`), for every `n`, where the formula is smooth. -/

namespace Adx
open Spec

section all
variable {V : Type} [NormedAddCommGroup V] [NormedSpace ℝ V] {ι : Type} {inp : ι → V} {dir : ℕ → V} {lv : ℕ}

namespace Spec.RJetV
variable {g h : V → V3 ℝ} {k : V → ℝ} {s : V} {a b : V3 (Rev ι (DualN lv))} {c : Rev ι (DualN lv)}

theorem add (ha : RJetV inp dir g s a) (hb : RJetV inp dir h s b) : RJetV inp dir (fun s => g s + h s) s (a + b) :=
  ⟨ha.x.add hb.x, ha.y.add hb.y, ha.z.add hb.z⟩
theorem sub (ha : RJetV inp dir g s a) (hb : RJetV inp dir h s b) : RJetV inp dir (fun s => g s - h s) s (a - b) :=
  ⟨ha.x.sub hb.x, ha.y.sub hb.y, ha.z.sub hb.z⟩
theorem smul (hc : RJet inp dir k s c) (ha : RJetV inp dir g s a) : RJetV inp dir (fun s => k s • g s) s (c • a) :=
  ⟨hc.mul ha.x, hc.mul ha.y, hc.mul ha.z⟩
theorem div (ha : RJetV inp dir g s a) (hc : RJet inp dir k s c) (h0 : k s ≠ 0) : RJetV inp dir (fun s => g s / k s) s (a / c) :=
  ⟨ha.x.div hc h0, ha.y.div hc h0, ha.z.div hc h0⟩
theorem dot (ha : RJetV inp dir g s a) (hb : RJetV inp dir h s b) : RJet inp dir (fun s => V3.dot (g s) (h s)) s (V3.dot a b) :=
  ((ha.x.mul hb.x).add (ha.y.mul hb.y)).add (ha.z.mul hb.z)
theorem cross (ha : RJetV inp dir g s a) (hb : RJetV inp dir h s b) : RJetV inp dir (fun s => V3.cross (g s) (h s)) s (V3.cross a b) :=
  ⟨(ha.y.mul hb.z).sub (ha.z.mul hb.y), (ha.z.mul hb.x).sub (ha.x.mul hb.z), (ha.x.mul hb.y).sub (ha.y.mul hb.x)⟩
theorem norm (ha : RJetV inp dir g s a) (h0 : g s ≠ ⟨0, 0, 0⟩) : RJet inp dir (fun s => V3.norm (g s)) s (V3.norm a) :=
  (ha.dot ha).sqrt ((V3.dot_self_pos _).2 h0)
end Spec.RJetV

section
variable {s : V} {a mu P r v p e f h U0 U1 U2 s0 r0 E M H N t chi alpha sg : V → ℝ}
variable {a' mu' P' r' v' p' e' f' h' U0' U1' U2' s0' r0' E' M' H' N' t' chi' alpha' sg' : Rev ι (DualN lv)}
variable {rv vv ev nv hv : V → V3 ℝ} {rv' vv' ev' nv' hv' : V3 (Rev ι (DualN lv))}

theorem C79_orb_period (ha : RJet inp dir a s a') (hmu : RJet inp dir mu s mu') (h1 : 0 < a s) (h2 : 0 < mu s) :
    RJet inp dir (fun s => orb_period (a s) (mu s)) s (orb_period a' mu') :=
  ((RJet.nat 2).mul .pi).mul (((ha.pow 3).div hmu h2.ne').sqrt (by positivity))

theorem C79_a_from_period (hP : RJet inp dir P s P') (hmu : RJet inp dir mu s mu') (h1 : P s ≠ 0) (h2 : 0 < mu s) :
    RJet inp dir (fun s => a_from_period (P s) (mu s)) s (a_from_period P' mu') :=
  ((((hP.pow 2).mul hmu).div (RJet.nat 4) (by norm_num)).div (RJet.pi.pow 2) (by positivity)).cbrt
    (by have := Real.pi_pos; positivity)

theorem C79_angular_momentum (hr : RJetV inp dir rv s rv') (hv : RJetV inp dir vv s vv') :
    RJetV inp dir (fun s => angular_momentum (rv s) (vv s)) s (angular_momentum rv' vv') := hr.cross hv

theorem C79_semimajor_axis (hr : RJet inp dir r s r') (hv : RJet inp dir v s v') (hmu : RJet inp dir mu s mu') (h1 : r s ≠ 0)
    (h2 : mu s ≠ 0) (h3 : 2 / r s - v s ^ 2 / mu s ≠ 0) :
    RJet inp dir (fun s => semimajor_axis (r s) (v s) (mu s)) s (semimajor_axis r' v' mu') :=
  (RJet.nat 1).div (((RJet.nat 2).div hr h1).sub ((hv.pow 2).div hmu h2)) (by simpa using h3)

theorem C79_eccentricity_vector (hr : RJetV inp dir rv s rv') (hv : RJetV inp dir vv s vv') (hmu : RJet inp dir mu s mu')
    (h1 : rv s ≠ ⟨0, 0, 0⟩) (h2 : mu s ≠ 0) :
    RJetV inp dir (fun s => eccentricity_vector (rv s) (vv s) (mu s)) s (eccentricity_vector rv' vv' mu') :=
  ((hv.cross (hr.cross hv)).div hmu h2).sub (hr.div (hr.norm h1) ((V3.norm_pos _).2 h1).ne')

theorem C79_semiparameter (hh : RJet inp dir h s h') (hmu : RJet inp dir mu s mu') (h2 : mu s ≠ 0) :
    RJet inp dir (fun s => semiparameter (h s) (mu s)) s (semiparameter h' mu') := (hh.pow 2).div hmu h2

theorem C79_mean_motion (hP : RJet inp dir P s P') (h1 : P s ≠ 0) :
    RJet inp dir (fun s => mean_motion (P s)) s (mean_motion P') := ((RJet.nat 2).mul .pi).div hP h1

theorem C79_equ_of_orbit (hp : RJet inp dir p s p') (he : RJet inp dir e s e') (hf : RJet inp dir f s f')
    (h0 : 1 + e s * Real.cos (f s) ≠ 0) :
    RJet inp dir (fun s => equ_of_orbit (p s) (e s) (f s)) s (equ_of_orbit p' e' f') :=
  hp.div ((RJet.nat 1).add (he.mul hf.cos)) (by simpa using h0)

theorem C79_equ_of_orb_uvi (h0 : RJet inp dir U0 s U0') (h1 : RJet inp dir U1 s U1') (h2 : RJet inp dir U2 s U2') (hr : RJet inp dir r s r')
    (hs : RJet inp dir s0 s s0') :
    RJet inp dir (fun s => equ_of_orb_uvi (U0 s) (U1 s) (U2 s) (r s) (s0 s)) s (equ_of_orb_uvi U0' U1' U2' r' s0') :=
  ((hr.mul h0).add (hs.mul h1)).add h2

theorem C79_radii (hp : RJet inp dir p s p') (he : RJet inp dir e s e') :
    (1 + e s ≠ 0 → RJet inp dir (fun s => radius_periapsis (p s) (e s)) s (radius_periapsis p' e')) ∧
    (1 - e s ≠ 0 → RJet inp dir (fun s => radius_apoapsis (p s) (e s)) s (radius_apoapsis p' e')) :=
  ⟨fun h => hp.div ((RJet.nat 1).add he) (by simpa using h),
   fun h => hp.div ((RJet.nat 1).sub he) (by simpa using h)⟩

theorem C79_sizes (ha : RJet inp dir a s a') (hp : RJet inp dir p s p') (he : RJet inp dir e s e') :
    RJet inp dir (fun s => semipara_from_ae (a s) (e s)) s (semipara_from_ae a' e') ∧
    (1 - e s ^ 2 ≠ 0 → RJet inp dir (fun s => a_from_pe (p s) (e s)) s (a_from_pe p' e')) :=
  ⟨ha.mul ((RJet.nat 1).sub (he.pow 2)), fun h => hp.div ((RJet.nat 1).sub (he.pow 2)) (by simpa using h)⟩

theorem C79_sigma (hr : RJetV inp dir rv s rv') (hv : RJetV inp dir vv s vv') (hmu : RJet inp dir mu s mu') (h0 : 0 < mu s) :
    RJet inp dir (fun s => sigma_fn (rv s) (vv s) (mu s)) s (sigma_fn rv' vv' mu') :=
  (hr.dot hv).div (hmu.sqrt h0) (Real.sqrt_pos.2 h0).ne'

theorem C79_lagrange (h1 : RJet inp dir U1 s U1') (h2 : RJet inp dir U2 s U2') (hs : RJet inp dir s0 s s0') (hr : RJet inp dir r s r')
    (hr0 : RJet inp dir r0 s r0') (hmu : RJet inp dir mu s mu') (hr1 : r s ≠ 0) (hr2 : r0 s ≠ 0) (h0 : 0 < mu s) :
    RJet inp dir (fun s => lagrange_F (U2 s) (r0 s)) s (lagrange_F U2' r0') ∧
    RJet inp dir (fun s => lagrange_G (U1 s) (U2 s) (s0 s) (r0 s) (mu s)) s (lagrange_G U1' U2' s0' r0' mu') ∧
    RJet inp dir (fun s => lagrange_Ft (U1 s) (r s) (r0 s) (mu s)) s (lagrange_Ft U1' r' r0' mu') ∧
    RJet inp dir (fun s => lagrange_Gt (U2 s) (r s)) s (lagrange_Gt U2' r') :=
  ⟨(RJet.nat 1).sub (h2.div hr0 hr2) |>.congr (.of_eq (by funext; simp [lagrange_F])),
   ((hr0.mul h1).add (hs.mul h2)).div (hmu.sqrt h0) (Real.sqrt_pos.2 h0).ne',
   (((hmu.sqrt h0).neg.div hr hr1).mul h1).div hr0 hr2,
   (RJet.nat 1).sub (h2.div hr hr1) |>.congr (.of_eq (by funext; simp [lagrange_Gt]))⟩

theorem C79_kepler_equ (hE : RJet inp dir E s E') (he : RJet inp dir e s e') (hM : RJet inp dir M s M') (hH : RJet inp dir H s H')
    (hN : RJet inp dir N s N') :
    RJet inp dir (fun s => kepler_equ_elps (E s) (e s) (M s)) s (kepler_equ_elps E' e' M') ∧
    RJet inp dir (fun s => dE (E s) (e s)) s (dE E' e') ∧
    RJet inp dir (fun s => kepler_equ_hypb (H s) (e s) (N s)) s (kepler_equ_hypb H' e' N') ∧
    RJet inp dir (fun s => dH (H s) (e s)) s (dH H' e') :=
  ⟨(hE.sub (he.mul hE.sin)).sub hM, (RJet.nat 1).sub (he.mul hE.cos), ((he.mul hH.sinh).sub hH).sub hN,
   (he.mul hH.cosh).sub (RJet.nat 1)⟩

theorem C79_mean_anomaly (ha : RJet inp dir a s a') (ht : RJet inp dir t s t') (hmu : RJet inp dir mu s mu') (h0 : 0 < mu s) :
    (0 < a s → RJet inp dir (fun s => mean_anomaly_elps (a s) (t s) (mu s)) s (mean_anomaly_elps a' t' mu')) ∧
    (a s < 0 → RJet inp dir (fun s => mean_anomaly_hypb (a s) (t s) (mu s)) s (mean_anomaly_hypb a' t' mu')) := by
  refine ⟨fun h => ((hmu.div (ha.pow 3) (by positivity)).sqrt (by positivity)).mul ht, fun h => ?_⟩
  have h3 : 0 < -(a s ^ 3) := by have := pow_pos (neg_pos.2 h) 3; nlinarith
  exact ((hmu.div (ha.pow 3).neg h3.ne').sqrt (by positivity)).mul ht

theorem C79_generalized_anomaly (hal : RJet inp dir alpha s alpha') (hs : RJet inp dir sg s sg') (hs0 : RJet inp dir s0 s s0')
    (ht : RJet inp dir t s t') (hmu : RJet inp dir mu s mu') (h0 : 0 < mu s) :
    RJet inp dir (fun s => generalized_anomaly (alpha s) (sg s) (s0 s) (t s) (mu s)) s
      (generalized_anomaly alpha' sg' s0' t' mu') := (((hal.mul (hmu.sqrt h0)).mul ht).add hs).sub hs0

/-- C78: the universal functions off the parabola. -/
theorem C79_ufunc (hc : RJet inp dir chi s chi') (ha : RJet inp dir alpha s alpha') (h0 : alpha s ≠ 0) :
    RJet inp dir (fun s => ufunc0 (chi s) (alpha s)) s (ufunc0 chi' alpha') ∧
    RJet inp dir (fun s => ufunc1 (chi s) (alpha s)) s (ufunc1 chi' alpha') ∧
    RJet inp dir (fun s => ufunc2 (chi s) (alpha s)) s (ufunc2 chi' alpha') ∧
    RJet inp dir (fun s => ufunc3 (chi s) (alpha s)) s (ufunc3 chi' alpha') ∧
    RJet inp dir (fun s => ufunc4 (chi s) (alpha s)) s (ufunc4 chi' alpha') ∧
    RJet inp dir (fun s => ufunc5 (chi s) (alpha s)) s (ufunc5 chi' alpha') := by
  have one : RJet inp dir (fun _ => ((1 : ℕ) : ℝ)) s (((1 : ℕ)) : Rev ι (DualN lv)) := RJet.nat 1
  have two : RJet inp dir (fun _ => ((2 : ℕ) : ℝ)) s (((2 : ℕ)) : Rev ι (DualN lv)) := RJet.nat 2
  have six : RJet inp dir (fun _ => ((6 : ℕ) : ℝ)) s (((6 : ℕ)) : Rev ι (DualN lv)) := RJet.nat 6
  rcases lt_or_gt_of_ne h0 with hn | hp
  · have hl1 : (JFun.lt (ℓ 0 : Rev ι (DualN lv)) alpha') = false := by
      rw [ha.zero_lt]; simpa using hn.le
    have hl2 : (JFun.lt alpha' (ℓ 0 : Rev ι (DualN lv))) = true := by
      rw [ha.lt_zero]; simpa using hn
    have hev : ∀ᶠ x in nhds s, alpha x < 0 := ha.smooth.continuousAt.eventually (gt_mem_nhds hn)
    have hq := ha.neg.sqrt (neg_pos.2 hn)
    have hq0 : Real.sqrt (-alpha s) ≠ 0 := (Real.sqrt_pos.2 (neg_pos.2 hn)).ne'
    have hqc := hq.mul hc
    refine ⟨?_, ?_, ?_, ?_, ?_, ?_⟩
    · have := hqc.cosh
      simp only [ufunc0, hl1, hl2, Bool.false_eq_true, if_false, if_true]
      refine this.congr ?_
      filter_upwards [hev] with x hx
      simp [hx, hx.not_gt]
    · have := hqc.sinh.div hq hq0
      simp only [ufunc1, hl1, hl2, Bool.false_eq_true, if_false, if_true]
      refine this.congr ?_
      filter_upwards [hev] with x hx
      simp [hx, hx.not_gt]
    · have := (hqc.cosh.sub one).div ha.neg (neg_ne_zero.2 h0)
      simp only [ufunc2, hl1, hl2, Bool.false_eq_true, if_false, if_true]
      refine this.congr ?_
      filter_upwards [hev] with x hx
      simp [hx, hx.not_gt]
    · have := ((hqc.sub hqc.sinh).div ha h0).div hq hq0
      simp only [ufunc3, hl1, hl2, Bool.false_eq_true, if_false, if_true]
      refine this.congr ?_
      filter_upwards [hev] with x hx
      simp [hx, hx.not_gt]
    · have := (((ha.mul (hc.pow 2)).sub two).add (two.mul hqc.cosh)).div (two.mul (ha.pow 2))
        (by simpa using h0)
      simp only [ufunc4, hl1, hl2, Bool.false_eq_true, if_false, if_true]
      refine this.congr ?_
      filter_upwards [hev] with x hx
      simp [hx, hx.not_gt]
    · have := ((((ha.pow 2).mul (hc.pow 3)).sub ((six.mul ha).mul hc)).sub ((six.mul hq).mul hqc.sinh)).div
        (six.mul (ha.pow 3)) (by simpa using h0)
      simp only [ufunc5, hl1, hl2, Bool.false_eq_true, if_false, if_true]
      refine this.congr ?_
      filter_upwards [hev] with x hx
      simp [hx, hx.not_gt]
  · have hl1 : (JFun.lt (ℓ 0 : Rev ι (DualN lv)) alpha') = true := by
      rw [ha.zero_lt]; simpa using hp
    have hev : ∀ᶠ x in nhds s, 0 < alpha x := ha.smooth.continuousAt.eventually (lt_mem_nhds hp)
    have hq := ha.sqrt hp
    have hq0 : Real.sqrt (alpha s) ≠ 0 := (Real.sqrt_pos.2 hp).ne'
    have hqc := hq.mul hc
    refine ⟨?_, ?_, ?_, ?_, ?_, ?_⟩
    · have := hqc.cos
      simp only [ufunc0, hl1, if_true]
      refine this.congr ?_
      filter_upwards [hev] with x hx
      simp [hx]
    · have := hqc.sin.div hq hq0
      simp only [ufunc1, hl1, if_true]
      refine this.congr ?_
      filter_upwards [hev] with x hx
      simp [hx]
    · have := (one.sub hqc.cos).div ha h0
      simp only [ufunc2, hl1, if_true]
      refine this.congr ?_
      filter_upwards [hev] with x hx
      simp [hx]
    · have := ((hqc.sub hqc.sin).div ha h0).div hq hq0
      simp only [ufunc3, hl1, if_true]
      refine this.congr ?_
      filter_upwards [hev] with x hx
      simp [hx]
    · have := (((ha.mul (hc.pow 2)).sub two).add (two.mul hqc.cos)).div (two.mul (ha.pow 2))
        (by simpa using h0)
      simp only [ufunc4, hl1, if_true]
      refine this.congr ?_
      filter_upwards [hev] with x hx
      simp [hx]
    · have := ((((ha.pow 2).mul (hc.pow 3)).sub ((six.mul ha).mul hc)).add ((six.mul hq).mul hqc.sin)).div
        (six.mul (ha.pow 3)) (by simpa using h0)
      simp only [ufunc5, hl1, if_true]
      refine this.congr ?_
      filter_upwards [hev] with x hx
      simp [hx]

/-- What is returned at `alpha = 0`: the derivative with `alpha` held fixed, whatever the tangent of `alpha`. -/
theorem C79_ufunc_at_zero (hc : RJet inp dir chi s chi') (ha : RJet inp dir alpha s alpha') (h0 : alpha s = 0) :
    RJet inp dir (fun s => ufunc0 (chi s) 0) s (ufunc0 chi' alpha') ∧
    RJet inp dir (fun s => ufunc1 (chi s) 0) s (ufunc1 chi' alpha') ∧
    RJet inp dir (fun s => ufunc2 (chi s) 0) s (ufunc2 chi' alpha') ∧
    RJet inp dir (fun s => ufunc3 (chi s) 0) s (ufunc3 chi' alpha') ∧
    RJet inp dir (fun s => ufunc4 (chi s) 0) s (ufunc4 chi' alpha') ∧
    RJet inp dir (fun s => ufunc5 (chi s) 0) s (ufunc5 chi' alpha') := by
  have hl1 : (JFun.lt (ℓ 0 : Rev ι (DualN lv)) alpha') = false := by
    rw [ha.zero_lt, h0]; simp
  have hl2 : (JFun.lt alpha' (ℓ 0 : Rev ι (DualN lv))) = false := by
    rw [ha.lt_zero, h0]; simp
  refine ⟨?_, ?_, ?_, ?_, ?_, ?_⟩
  · simp only [ufunc0, hl1, hl2, Bool.false_eq_true, if_false]
    exact (RJet.onesLike chi').congr (.of_eq (by funext x; simp))
  · simp only [ufunc1, hl1, hl2, Bool.false_eq_true, if_false]
    exact hc.congr (.of_eq (by funext x; simp))
  · simp only [ufunc2, hl1, hl2, Bool.false_eq_true, if_false]
    exact ((hc.pow 2).div (RJet.nat 2) (by norm_num)).congr (.of_eq (by funext x; simp))
  · simp only [ufunc3, hl1, hl2, Bool.false_eq_true, if_false]
    exact ((hc.pow 3).div (RJet.nat 6) (by norm_num)).congr (.of_eq (by funext x; simp))
  · simp only [ufunc4, hl1, hl2, Bool.false_eq_true, if_false]
    exact ((hc.pow 4).div (RJet.nat 24) (by norm_num)).congr (.of_eq (by funext x; simp))
  · simp only [ufunc5, hl1, hl2, Bool.false_eq_true, if_false]
    exact ((hc.pow 5).div (RJet.nat 120) (by norm_num)).congr (.of_eq (by funext x; simp))

/-- C78: the universal Kepler equation and its derivative. -/
theorem C79_kepler_equ_uni (hc : RJet inp dir chi s chi') (ha : RJet inp dir alpha s alpha') (hr : RJet inp dir r0 s r0')
    (hs : RJet inp dir s0 s s0') (ht : RJet inp dir t s t') (hmu : RJet inp dir mu s mu') (h0 : alpha s ≠ 0) (hm : 0 < mu s) :
    RJet inp dir (fun s => kepler_equ_uni (chi s) (alpha s) (r0 s) (s0 s) (t s) (mu s)) s
      (kepler_equ_uni chi' alpha' r0' s0' t' mu') ∧
    RJet inp dir (fun s => dchi (chi s) (alpha s) (r0 s) (s0 s)) s (dchi chi' alpha' r0' s0') := by
  obtain ⟨u0, u1, u2, u3, -, -⟩ := C79_ufunc hc ha h0
  exact ⟨(((hr.mul u1).add (hs.mul u2)).add u3).sub ((hmu.sqrt hm).mul ht), ((hr.mul u0).add (hs.mul u1)).add u2⟩

end

section
variable {s : V} {mu chi alpha r0 s0 U2 U4 U5 t p e i Ω ω f an J Req rmin : V → ℝ}
variable {mu' chi' alpha' r0' s0' U2' U4' U5' t' p' e' i' Ω' ω' f' an' J' Req' rmin' : Rev ι (DualN lv)}
variable {rv vv ev nv hv : V → V3 ℝ} {rv' vv' ev' nv' hv' : V3 (Rev ι (DualN lv))}

theorem C79_C_func (hc : RJet inp dir chi s chi') (h2 : RJet inp dir U2 s U2') (h4 : RJet inp dir U4 s U4') (h5 : RJet inp dir U5 s U5')
    (ht : RJet inp dir t s t') (hmu : RJet inp dir mu s mu') (h0 : 0 < mu s) :
    RJet inp dir (fun s => C_func (chi s) (U2 s) (U4 s) (U5 s) (t s) (mu s)) s (C_func chi' U2' U4' U5' t' mu') :=
  ((((RJet.nat 3).mul h5).sub (hc.mul h4)).sub (((hmu.sqrt h0).mul ht).mul h2)).div (hmu.sqrt h0)
    (Real.sqrt_pos.2 h0).ne'

/-- C78: the propagated state, for given `chi`. -/
theorem C79_keplerStep (hc : RJet inp dir chi s chi') (ha : RJet inp dir alpha s alpha') (hr : RJet inp dir r0 s r0')
    (hs : RJet inp dir s0 s s0') (hrv : RJetV inp dir rv s rv') (hvv : RJetV inp dir vv s vv') (hmu : RJet inp dir mu s mu')
    (h0 : alpha s ≠ 0) (hm : 0 < mu s) (hr0 : r0 s ≠ 0) (hd : dchi (chi s) (alpha s) (r0 s) (s0 s) ≠ 0) :
    RJetV inp dir (fun s => (keplerStep (chi s) (alpha s) (r0 s) (s0 s) (rv s) (vv s) (mu s)).1) s
      (keplerStep chi' alpha' r0' s0' rv' vv' mu').1 ∧
    RJetV inp dir (fun s => (keplerStep (chi s) (alpha s) (r0 s) (s0 s) (rv s) (vv s) (mu s)).2) s
      (keplerStep chi' alpha' r0' s0' rv' vv' mu').2 := by
  obtain ⟨u0, u1, u2, -, -, -⟩ := C79_ufunc hc ha h0
  have hrad := C79_equ_of_orb_uvi u0 u1 u2 hr hs
  obtain ⟨hF, hG, hFt, hGt⟩ := C79_lagrange u1 u2 hs hrad hr hmu hd hr0 hm
  exact ⟨(RJetV.smul hF hrv).add (RJetV.smul hG hvv), (RJetV.smul hFt hrv).add (RJetV.smul hGt hvv)⟩

theorem C79_wrapNeg {x : V → ℝ} {x' : Rev ι (DualN lv)} (hx : RJet inp dir x s x') (h0 : x s ≠ 0) :
    RJet inp dir (fun s => wrapNeg (x s)) s (wrapNeg x') := by
  rcases lt_or_gt_of_ne h0 with hn | hp
  · have hl : JFun.lt x' (ℓ 0 : Rev ι (DualN lv)) = true := by
      rw [hx.lt_zero]; simpa using hn
    rw [wrapNeg, hl]
    refine (((RJet.nat 2).mul RJet.pi).add hx).congr ?_
    filter_upwards [hx.smooth.continuousAt.eventually (gt_mem_nhds hn)] with y hy
    simp [wrapNeg, hy]
  · have hl : JFun.lt x' (ℓ 0 : Rev ι (DualN lv)) = false := by
      rw [hx.lt_zero]; simpa using hp.le
    rw [wrapNeg, hl]
    refine hx.congr ?_
    filter_upwards [hx.smooth.continuousAt.eventually (lt_mem_nhds hp)] with y hy
    simp [wrapNeg, hy.le]

/-- C78: the classical elements. Inclination off the equator; the angles where the vectors are not parallel. -/
theorem C79_inclination (hh : RJetV inp dir hv s hv') (h0 : hv s ≠ ⟨0, 0, 0⟩) (h1 : (hv s).x ≠ 0 ∨ (hv s).y ≠ 0) :
    RJet inp dir (fun s => inclination (hv s)) s (inclination hv') := by
  have hn := (V3.norm_pos _).2 h0
  have hlt : ((hv s).z / V3.norm (hv s)) ^ 2 < 1 := by
    rw [div_pow, div_lt_one (by positivity), V3.norm_sq]
    unfold V3.dot
    rcases h1 with h | h
    · nlinarith [mul_self_pos.2 h, mul_self_nonneg (hv s).y]
    · nlinarith [mul_self_pos.2 h, mul_self_nonneg (hv s).x]
  refine (hh.z.div (hh.norm h0) hn.ne').arccos ?_ ?_
  · exact (abs_lt.1 ((sq_lt_one_iff_abs_lt_one _).1 hlt)).1
  · exact (abs_lt.1 ((sq_lt_one_iff_abs_lt_one _).1 hlt)).2

theorem C79_true_anomaly (hr : RJetV inp dir rv s rv') (he : RJetV inp dir ev s ev') (h0 : V3.cross (ev s) (rv s) ≠ ⟨0, 0, 0⟩) :
    RJet inp dir (fun s => true_anomaly (rv s) (ev s)) s (true_anomaly rv' ev') := by
  have hn := (V3.norm_pos _).2 h0
  refine C79_wrapNeg (((he.cross hr).norm h0).arctan2 (he.dot hr) (Or.inr hn.ne')) ?_
  intro h
  rw [arctan2_real, Complex.arg_eq_zero_iff] at h
  exact hn.ne' h.2

theorem C79_argument_of_periapsis (hn : RJetV inp dir nv s nv') (he : RJetV inp dir ev s ev')
    (h0 : V3.cross (nv s) (ev s) ≠ ⟨0, 0, 0⟩) :
    RJet inp dir (fun s => argument_of_periapsis (nv s) (ev s)) s (argument_of_periapsis nv' ev') := by
  have hp := (V3.norm_pos _).2 h0
  refine C79_wrapNeg (((hn.cross he).norm h0).arctan2 (hn.dot he) (Or.inr hp.ne')) ?_
  intro h
  rw [arctan2_real, Complex.arg_eq_zero_iff] at h
  exact hp.ne' h.2

/-- Right ascension: everywhere but on the positive `x` axis, where it jumps. -/
theorem C79_right_ascension (hn : RJetV inp dir nv s nv') (h0 : (nv s).y ≠ 0 ∨ (nv s).x < 0) :
    RJet inp dir (fun s => right_ascension (nv s)) s (right_ascension nv') := by
  by_cases hy : (nv s).y = 0
  · have hx : (nv s).x < 0 := h0.resolve_left (fun h => h hy)
    have h := hn.y.arctan2_cut hn.x hx hy
    have hl : JFun.lt (JFun.arctan2 nv'.y nv'.x) (ℓ 0 : Rev ι (DualN lv)) = false := by
      have e3 : (⟨-(nv s).x, -(nv s).y⟩ : ℂ) = ((-(nv s).x : ℝ) : ℂ) := by apply Complex.ext <;> simp [hy]
      rw [h.lt_zero, e3, Complex.arg_ofReal_of_nonneg (by linarith)]
      simpa using Real.pi_pos.le
    rw [right_ascension, wrapNeg, hl]
    refine h.congr ?_
    filter_upwards [hn.x.smooth.continuousAt.eventually (gt_mem_nhds hx)] with q hq
    have key : ∀ x y : ℝ, x < 0 → (if Complex.arg ⟨x, y⟩ < 0 then 2 * Real.pi + Complex.arg ⟨x, y⟩
        else Complex.arg ⟨x, y⟩) = Real.pi + Complex.arg ⟨-x, -y⟩ := by
      intro x y hx
      have e4 : (⟨-x, -y⟩ : ℂ) = -⟨x, y⟩ := by apply Complex.ext <;> simp
      rw [e4]
      rcases lt_or_ge y 0 with hy | hy
      · rw [if_pos (Complex.arg_neg_iff.2 hy), Complex.arg_neg_eq_arg_add_pi_of_im_neg hy]; ring
      · rw [if_neg (not_lt.2 (Complex.arg_nonneg_iff.2 hy))]
        rcases hy.lt_or_eq with hy | hy
        · rw [Complex.arg_neg_eq_arg_sub_pi_of_im_pos hy]; ring
        · have e5 : (⟨x, y⟩ : ℂ) = ((x : ℝ) : ℂ) := by apply Complex.ext <;> simp [← hy]
          rw [e5, ← Complex.ofReal_neg, Complex.arg_ofReal_of_neg hx, Complex.arg_ofReal_of_nonneg (by linarith)]; ring
    have := key (nv q).x (nv q).y hq
    simpa [wrapNeg, right_ascension] using this
  replace h0 : (nv s).y ≠ 0 := hy
  refine C79_wrapNeg (hn.y.arctan2 hn.x (Or.inr h0)) ?_
  intro h
  rw [arctan2_real, Complex.arg_eq_zero_iff] at h
  exact h0 h.2

theorem C79_rotmat (ha : RJet inp dir an s an') :
    RJetM inp dir (fun s => rotmat3dx (an s)) s (rotmat3dx an') ∧ RJetM inp dir (fun s => rotmat3dy (an s)) s (rotmat3dy an') ∧
    RJetM inp dir (fun s => rotmat3dz (an s)) s (rotmat3dz an') := by
  have z : RJet inp dir (fun _ => ((0 : ℕ) : ℝ)) s (((0 : ℕ)) : Rev ι (DualN lv)) := RJet.nat 0
  have o : RJet inp dir (fun _ => ((1 : ℕ) : ℝ)) s (((1 : ℕ)) : Rev ι (DualN lv)) := RJet.nat 1
  exact ⟨⟨⟨o, z, z⟩, ⟨z, ha.cos, ha.sin.neg⟩, ⟨z, ha.sin, ha.cos⟩⟩,
    ⟨⟨ha.cos, z, ha.sin⟩, ⟨z, o, z⟩, ⟨ha.sin.neg, z, ha.cos⟩⟩, ⟨⟨ha.cos, ha.sin.neg, z⟩, ⟨ha.sin, ha.cos, z⟩, ⟨z, z, o⟩⟩⟩

theorem Spec.RJetM.mulVec {g : V → M3 ℝ} {m : M3 (Rev ι (DualN lv))} (hg : RJetM inp dir g s m) (hr : RJetV inp dir rv s rv') :
    RJetV inp dir (fun s => M3.mulVec (g s) (rv s)) s (M3.mulVec m rv') := ⟨hg.r0.dot hr, hg.r1.dot hr, hg.r2.dot hr⟩

theorem Spec.RJetM.mul {g h : V → M3 ℝ} {m n : M3 (Rev ι (DualN lv))} (hg : RJetM inp dir g s m) (hh : RJetM inp dir h s n) :
    RJetM inp dir (fun s => M3.mul (g s) (h s)) s (M3.mul m n) := by
  have hx : RJetV inp dir (fun s => ⟨(h s).r0.x, (h s).r1.x, (h s).r2.x⟩) s ⟨n.r0.x, n.r1.x, n.r2.x⟩ :=
    ⟨hh.r0.x, hh.r1.x, hh.r2.x⟩
  have hy : RJetV inp dir (fun s => ⟨(h s).r0.y, (h s).r1.y, (h s).r2.y⟩) s ⟨n.r0.y, n.r1.y, n.r2.y⟩ :=
    ⟨hh.r0.y, hh.r1.y, hh.r2.y⟩
  have hz : RJetV inp dir (fun s => ⟨(h s).r0.z, (h s).r1.z, (h s).r2.z⟩) s ⟨n.r0.z, n.r1.z, n.r2.z⟩ :=
    ⟨hh.r0.z, hh.r1.z, hh.r2.z⟩
  exact ⟨⟨hg.r0.dot hx, hg.r0.dot hy, hg.r0.dot hz⟩, ⟨hg.r1.dot hx, hg.r1.dot hy, hg.r1.dot hz⟩,
    ⟨hg.r2.dot hx, hg.r2.dot hy, hg.r2.dot hz⟩⟩

theorem C79_coe2rv (hp : RJet inp dir p s p') (he : RJet inp dir e s e') (hi : RJet inp dir i s i') (hΩ : RJet inp dir Ω s Ω')
    (hω : RJet inp dir ω s ω') (hf : RJet inp dir f s f') (hmu : RJet inp dir mu s mu') (h1 : 0 < p s) (h2 : 0 < mu s)
    (h3 : 1 + e s * Real.cos (f s) ≠ 0) :
    RJetV inp dir (fun s => (coe2rv (p s) (e s) (i s) (Ω s) (ω s) (f s) (mu s)).1) s (coe2rv p' e' i' Ω' ω' f' mu').1 ∧
    RJetV inp dir (fun s => (coe2rv (p s) (e s) (i s) (Ω s) (ω s) (f s) (mu s)).2) s (coe2rv p' e' i' Ω' ω' f' mu').2 := by
  have z : RJet inp dir (fun _ => ((0 : ℕ) : ℝ)) s (((0 : ℕ)) : Rev ι (DualN lv)) := RJet.nat 0
  have hR := (((C79_rotmat hΩ).2.2).mul (C79_rotmat hi).1).mul (C79_rotmat hω).2.2
  have hr : RJetV inp dir (fun s => perifocalPos (p s) (e s) (f s)) s (perifocalPos p' e' f') :=
    RJetV.smul (hp.div ((RJet.nat 1).add (he.mul hf.cos)) (by simpa using h3)) ⟨hf.cos, hf.sin, z⟩
  have hv : RJetV inp dir (fun s => perifocalVel (p s) (e s) (f s) (mu s)) s (perifocalVel p' e' f' mu') :=
    RJetV.smul ((hmu.div hp h1.ne').sqrt (by positivity)) ⟨hf.sin.neg, he.add hf.cos, z⟩
  exact ⟨hR.mulVec hr, hR.mulVec hv⟩

/-- C78: the force models and the event, for a state and parameters that vary; the rest of the state is arbitrary. -/
theorem C79_gravity (tD : Rev ι (DualN lv)) (tR : V → ℝ) (rest' : List (Rev ι (DualN lv))) (rest : V → List ℝ) (hr : RJetV inp dir rv s rv')
    (h0 : rv s ≠ ⟨0, 0, 0⟩) {args : V → Args ℝ} {args' : Args (Rev ι (DualN lv))}
    (hmu : RJet inp dir mu s mu') (hJ : RJet inp dir J s J') (hR : RJet inp dir Req s Req')
    (kmu : args' "mu" = some mu') (kmu' : ∀ s, args s "mu" = some (mu s))
    (kR : args' "R_eq" = some Req') (kR' : ∀ s, args s "R_eq" = some (Req s)) :
    (∃ g g', (∀ s, point_mass_grav (tR s) ⟨rv s, rest s⟩ (args s) = .ok (g s)) ∧
      point_mass_grav tD ⟨rv', rest'⟩ args' = .ok g' ∧ RJetV inp dir g s g') ∧
    (args' "J2" = some J' → (∀ s, args s "J2" = some (J s)) →
      ∃ g g', (∀ s, j2_acc (tR s) ⟨rv s, rest s⟩ (args s) = .ok (g s)) ∧ j2_acc tD ⟨rv', rest'⟩ args' = .ok g' ∧
        RJetV inp dir g s g') ∧
    (args' "J3" = some J' → (∀ s, args s "J3" = some (J s)) →
      ∃ g g', (∀ s, j3_acc (tR s) ⟨rv s, rest s⟩ (args s) = .ok (g s)) ∧ j3_acc tD ⟨rv', rest'⟩ args' = .ok g' ∧
        RJetV inp dir g s g') ∧
    (args' "J4" = some J' → (∀ s, args s "J4" = some (J s)) →
      ∃ g g', (∀ s, j4_acc (tR s) ⟨rv s, rest s⟩ (args s) = .ok (g s)) ∧ j4_acc tD ⟨rv', rest'⟩ args' = .ok g' ∧
        RJetV inp dir g s g') := by
  have hn := hr.norm h0
  have hn0 : V3.norm (rv s) ≠ 0 := ((V3.norm_pos _).2 h0).ne'
  have n : ∀ k, RJet inp dir (fun _ => ((k : ℕ) : ℝ)) s (k : Rev ι (DualN lv)) := fun k => RJet.nat k
  refine ⟨?_, fun kJ kJ' => ?_, fun kJ kJ' => ?_, fun kJ kJ' => ?_⟩
  · refine ⟨_, _, fun s => by simp only [point_mass_grav, Args.get, kmu']; rfl, by
      simp only [point_mass_grav, Args.get, kmu]; rfl, ?_⟩
    have hm := (hmu.div (hn.pow 3) (pow_ne_zero 3 hn0)).neg
    exact ⟨hm.mul hr.x, hm.mul hr.y, hm.mul hr.z⟩
  · refine ⟨_, _, fun s => by simp only [j2_acc, Args.get, kmu', kJ', kR']; rfl, by
      simp only [j2_acc, Args.get, kmu, kJ, kR]; rfl, ?_⟩
    have hz := (hr.z.div hn hn0).pow 2
    have hf := ((((((n 3).div (n 2) (by norm_num)).neg.mul hmu).mul hJ).mul (hR.pow 2)).div (hn.pow 5) (pow_ne_zero 5 hn0))
    exact ⟨(hf.mul hr.x).mul ((n 1).sub ((n 5).mul hz)), (hf.mul hr.y).mul ((n 1).sub ((n 5).mul hz)),
      (hf.mul hr.z).mul ((n 3).sub ((n 5).mul hz))⟩
  · refine ⟨_, _, fun s => by simp only [j3_acc, Args.get, kmu', kJ', kR']; rfl, by
      simp only [j3_acc, Args.get, kmu, kJ, kR]; rfl, ?_⟩
    have hz := (hr.z.pow 3).div (hn.pow 2) (pow_ne_zero 2 hn0)
    have hf := ((((((n 5).div (n 2) (by norm_num)).neg.mul hmu).mul hJ).mul (hR.pow 3)).div (hn.pow 7) (pow_ne_zero 7 hn0))
    exact ⟨(hf.mul hr.x).mul (((n 3).mul hr.z).sub ((n 7).mul hz)), (hf.mul hr.y).mul (((n 3).mul hr.z).sub ((n 7).mul hz)),
      hf.mul ((((n 6).mul (hr.z.pow 2)).sub (((n 7).mul hz).mul hr.z)).sub
        (((n 3).div (n 5) (by norm_num)).mul (hn.pow 2)))⟩
  · refine ⟨_, _, fun s => by simp only [j4_acc, Args.get, kmu', kJ', kR']; rfl, by
      simp only [j4_acc, Args.get, kmu, kJ, kR]; rfl, ?_⟩
    have hz := (hr.z.div hn hn0).pow 2
    have hf := (((((n 15).div (n 8) (by norm_num)).mul hmu).mul hJ).mul (hR.pow 4)).div (hn.pow 7) (pow_ne_zero 7 hn0)
    have hxy := ((n 1).sub ((n 14).mul hz)).add ((n 21).mul (hz.pow 2))
    exact ⟨(hf.mul hr.x).mul hxy, (hf.mul hr.y).mul hxy,
      (hf.mul hr.z).mul (((n 5).sub (((n 70).mul hz).div (n 3) (by norm_num))).add ((n 21).mul (hz.pow 2)))⟩

theorem C79_radius_islow (tD : Rev ι (DualN lv)) (tR : V → ℝ) (rest' : List (Rev ι (DualN lv))) (rest : V → List ℝ) (hr : RJetV inp dir rv s rv')
    (h0 : rv s ≠ ⟨0, 0, 0⟩) {args : V → Args ℝ} {args' : Args (Rev ι (DualN lv))} (hm : RJet inp dir rmin s rmin')
    (k : args' "rmin" = some rmin') (k' : ∀ s, args s "rmin" = some (rmin s)) :
    ∃ g g', (∀ s, radius_islow (tR s) ⟨rv s, rest s⟩ (args s) = .ok (g s)) ∧
      radius_islow tD ⟨rv', rest'⟩ args' = .ok g' ∧ RJet inp dir g s g' := by
  refine ⟨_, _, fun s => by simp only [radius_islow, Args.get, k']; rfl, by
    simp only [radius_islow, Args.get, k]; rfl, ?_⟩
  exact (hr.norm h0).sub hm

/-- C78: the revolution count is locally constant off its jumps, and the derivative returned is 0. -/
theorem C79_nmax {rp r1 r2 : V → ℝ} {rp' r1' r2' : Rev ι (DualN lv)} (hrp : RJet inp dir rp s rp') (h1 : RJet inp dir r1 s r1')
    (h2 : RJet inp dir r2 s r2') (ht : RJet inp dir t s t') (hmu : RJet inp dir mu s mu') (hne : r1 s ≠ r2 s) (hm : 0 < mu s)
    (hpos : 0 < max (r1 s) (r2 s) + rp s)
    (hj : ∀ k : ℤ, t s / (2 * Real.pi) * Real.sqrt (mu s / (1 / 2 * (max (r1 s) (r2 s) + rp s)) ^ 3) ≠ k) :
    RJet inp dir (fun s => nmax_by_periapsis (rp s) (r1 s) (r2 s) (t s) (mu s)) s (nmax_by_periapsis rp' r1' r2' t' mu') := by
  have hmax : RJet inp dir (fun s => max (r1 s) (r2 s)) s (JFun.maximum r1' r2') := by
    rcases lt_or_gt_of_ne hne with h | h
    · exact h1.maximum h2 hne
    · exact h1.maximum h2 hne
  have n : ∀ k, RJet inp dir (fun _ => ((k : ℕ) : ℝ)) s (k : Rev ι (DualN lv)) := fun k => RJet.nat k
  have ha := ((n 1).div (n 2) (by norm_num)).mul (hmax.add hrp)
  have hpos' : 0 < ((1 : ℕ) : ℝ) / ((2 : ℕ) : ℝ) * (max (r1 s) (r2 s) + rp s) := by
    have : ((1 : ℕ) : ℝ) / ((2 : ℕ) : ℝ) = 1 / 2 := by norm_num
    rw [this]; positivity
  have hs := (hmu.div (ha.pow 3) (pow_pos hpos' 3).ne').sqrt (div_pos hm (pow_pos hpos' 3))
  have hx := (ht.div ((n 2).mul RJet.pi) (by have := Real.pi_pos; positivity)).mul hs
  refine hx.floor ?_
  have := hj ⌊t s / (2 * Real.pi) * Real.sqrt (mu s / (1 / 2 * (max (r1 s) (r2 s) + rp s)) ^ 3)⌋
  simpa using this

namespace Spec.RJetM
variable {g h : V → M3 ℝ} {k : V → ℝ} {m n : M3 (Rev ι (DualN lv))} {c : Rev ι (DualN lv)}
theorem add (hg : RJetM inp dir g s m) (hh : RJetM inp dir h s n) : RJetM inp dir (fun s => g s + h s) s (m + n) :=
  ⟨hg.r0.add hh.r0, hg.r1.add hh.r1, hg.r2.add hh.r2⟩
theorem sub (hg : RJetM inp dir g s m) (hh : RJetM inp dir h s n) : RJetM inp dir (fun s => g s - h s) s (m - n) :=
  ⟨hg.r0.sub hh.r0, hg.r1.sub hh.r1, hg.r2.sub hh.r2⟩
theorem neg (hg : RJetM inp dir g s m) : RJetM inp dir (fun s => -g s) s (-m) :=
  ⟨⟨hg.r0.x.neg, hg.r0.y.neg, hg.r0.z.neg⟩, ⟨hg.r1.x.neg, hg.r1.y.neg, hg.r1.z.neg⟩,
    ⟨hg.r2.x.neg, hg.r2.y.neg, hg.r2.z.neg⟩⟩
theorem smul (hc : RJet inp dir k s c) (hg : RJetM inp dir g s m) : RJetM inp dir (fun s => k s • g s) s (c • m) :=
  ⟨RJetV.smul hc hg.r0, RJetV.smul hc hg.r1, RJetV.smul hc hg.r2⟩
theorem div (hg : RJetM inp dir g s m) (hc : RJet inp dir k s c) (h0 : k s ≠ 0) : RJetM inp dir (fun s => g s / k s) s (m / c) :=
  ⟨hg.r0.div hc h0, hg.r1.div hc h0, hg.r2.div hc h0⟩
theorem eye : RJetM inp dir (fun _ => (M3.eye : M3 ℝ)) s (M3.eye : M3 (Rev ι (DualN lv))) :=
  ⟨⟨RJet.nat 1, RJet.nat 0, RJet.nat 0⟩, ⟨RJet.nat 0, RJet.nat 1, RJet.nat 0⟩,
    ⟨RJet.nat 0, RJet.nat 0, RJet.nat 1⟩⟩
theorem outer {a b : V → V3 ℝ} {a' b' : V3 (Rev ι (DualN lv))} (ha : RJetV inp dir a s a') (hb : RJetV inp dir b s b') :
    RJetM inp dir (fun s => M3.outer (a s) (b s)) s (M3.outer a' b') :=
  ⟨⟨ha.x.mul hb.x, ha.x.mul hb.y, ha.x.mul hb.z⟩, ⟨ha.y.mul hb.x, ha.y.mul hb.y, ha.y.mul hb.z⟩,
    ⟨ha.z.mul hb.x, ha.z.mul hb.y, ha.z.mul hb.z⟩⟩
end Spec.RJetM

section stm
variable {F G Ft Gt C : V → ℝ} {F' G' Ft' Gt' C' : Rev ι (DualN lv)} {r0v v0v : V → V3 ℝ} {r0v' v0v' : V3 (Rev ι (DualN lv))}

/-- C78: the blocks of the state transition matrix. -/
theorem C79_blocks (hr : RJetV inp dir rv s rv') (hv : RJetV inp dir vv s vv') (hr0 : RJetV inp dir r0v s r0v') (hv0 : RJetV inp dir v0v s v0v')
    (hF : RJet inp dir F s F') (hG : RJet inp dir G s G') (hFt : RJet inp dir Ft s Ft') (hGt : RJet inp dir Gt s Gt') (hC : RJet inp dir C s C')
    (hmu : RJet inp dir mu s mu') (h1 : rv s ≠ ⟨0, 0, 0⟩) (h2 : r0v s ≠ ⟨0, 0, 0⟩) (h3 : mu s ≠ 0) :
    RJetM inp dir (fun s => prpr0 (rv s) (vv s) (r0v s) (v0v s) (F s) (C s) (mu s)) s (prpr0 rv' vv' r0v' v0v' F' C' mu') ∧
    RJetM inp dir (fun s => prpv0 (rv s) (vv s) (r0v s) (v0v s) (F s) (G s) (C s) (mu s)) s
      (prpv0 rv' vv' r0v' v0v' F' G' C' mu') ∧
    RJetM inp dir (fun s => pvpr0 (rv s) (vv s) (r0v s) (v0v s) (Ft s) (C s) (mu s)) s (pvpr0 rv' vv' r0v' v0v' Ft' C' mu') ∧
    RJetM inp dir (fun s => pvpv0 (rv s) (vv s) (r0v s) (v0v s) (F s) (Gt s) (C s) (mu s)) s
      (pvpv0 rv' vv' r0v' v0v' F' Gt' C' mu') := by
  have n1 := hr.norm h1
  have n2 := hr0.norm h2
  have q1 : V3.norm (rv s) ≠ 0 := ((V3.norm_pos _).2 h1).ne'
  have q2 : V3.norm (r0v s) ≠ 0 := ((V3.norm_pos _).2 h2).ne'
  have one : RJet inp dir (fun _ => ((1 : ℕ) : ℝ)) s (((1 : ℕ)) : Rev ι (DualN lv)) := RJet.nat 1
  have u1 := hr.div n1 q1
  have u2 := hr0.div n2 q2
  have dv := hv.sub hv0
  have I : RJetM inp dir (fun _ => (M3.eye : M3 ℝ)) s (M3.eye : M3 (Rev ι (DualN lv))) := RJetM.eye
  refine ⟨?_, ?_, ?_, ?_⟩
  · exact (((RJetM.smul (n1.div hmu h3) (.outer dv dv)).add (RJetM.smul (one.sub hF) (.outer (hr.div n2 q2) u2))).add
      (RJetM.smul (hC.div (n2.pow 2) (pow_ne_zero 2 q2)) (.outer hv u2))).add (RJetM.smul hF I)
  · exact ((RJetM.smul ((n2.div hmu h3).mul (one.sub hF)) ((RJetM.outer (hr.sub hr0) hv0).sub (.outer dv hr0))).add
      (RJetM.smul (hC.div hmu h3) (.outer hv hv0))).add (RJetM.smul hG I)
  · exact (((RJetM.outer dv (hr0.div (n2.pow 2) (pow_ne_zero 2 q2))).neg.sub
      (.outer (hr.div (n1.pow 2) (pow_ne_zero 2 q1)) dv)).add
      (RJetM.smul hFt ((I.sub (.outer u1 u1)).add
        ((((RJetM.outer hr hv).sub (.outer hv hr)).div hmu h3).mul (.outer u1 dv))))).sub
      (RJetM.smul (((hmu.div (n1.pow 2) (pow_ne_zero 2 q1)).mul hC).div (n2.pow 2) (pow_ne_zero 2 q2)) (.outer u1 u2))
  · exact (((RJetM.smul (n2.div hmu h3) (.outer dv dv)).add
      ((RJetM.smul n2 (RJetM.smul (one.sub hF) (.outer u1 (hr0.div n1 q1)))).div n1 q1)).sub
      (RJetM.smul (hC.div (n1.pow 2) (pow_ne_zero 2 q1)) (.outer u1 hv0))).add (RJetM.smul hGt I)

end stm

end

end all
end Adx
