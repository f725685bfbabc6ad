import Verif.Lemmas.Dual
import Verif.Lemmas.RealVec
import Verif.Props.C07
import Verif.Model.Kepler
import Verif.Model.OrbElements
import Verif.Model.StateTrans
import Verif.Model.Gravity
import Verif.Model.PathCheck

/-! # C62: forward-mode derivatives of the formulas

Every formula of the library, evaluated on traced values, returns the derivative along every differentiable curve
of arguments, where the formula is smooth. The exception is `ufunc0 … ufunc5` at `alpha = 0`: the parabolic
branch does not mention `alpha`, so the derivative with respect to `alpha` is lost there. -/

namespace Adx
open Spec

namespace Spec.TracksV
variable {g h : ℝ → V3 ℝ} {k : ℝ → ℝ} {s : ℝ} {a b : V3 (Dual ℝ)} {c : Dual ℝ}

theorem add (ha : TracksV g s a) (hb : TracksV h s b) : TracksV (fun s => g s + h s) s (a + b) :=
  ⟨ha.x.add hb.x, ha.y.add hb.y, ha.z.add hb.z⟩
theorem sub (ha : TracksV g s a) (hb : TracksV h s b) : TracksV (fun s => g s - h s) s (a - b) :=
  ⟨ha.x.sub hb.x, ha.y.sub hb.y, ha.z.sub hb.z⟩
theorem smul (hc : Tracks k s c) (ha : TracksV g s a) : TracksV (fun s => k s • g s) s (c • a) :=
  ⟨hc.mul ha.x, hc.mul ha.y, hc.mul ha.z⟩
theorem div (ha : TracksV g s a) (hc : Tracks k s c) (h0 : k s ≠ 0) : TracksV (fun s => g s / k s) s (a / c) :=
  ⟨ha.x.div hc h0, ha.y.div hc h0, ha.z.div hc h0⟩
theorem dot (ha : TracksV g s a) (hb : TracksV h s b) : Tracks (fun s => V3.dot (g s) (h s)) s (V3.dot a b) :=
  ((ha.x.mul hb.x).add (ha.y.mul hb.y)).add (ha.z.mul hb.z)
theorem cross (ha : TracksV g s a) (hb : TracksV h s b) : TracksV (fun s => V3.cross (g s) (h s)) s (V3.cross a b) :=
  ⟨(ha.y.mul hb.z).sub (ha.z.mul hb.y), (ha.z.mul hb.x).sub (ha.x.mul hb.z), (ha.x.mul hb.y).sub (ha.y.mul hb.x)⟩
theorem norm (ha : TracksV g s a) (h0 : g s ≠ ⟨0, 0, 0⟩) : Tracks (fun s => V3.norm (g s)) s (V3.norm a) :=
  (ha.dot ha).sqrt ((V3.dot_self_pos _).2 h0)
end Spec.TracksV

/-- The same for matrices, row by row. -/
structure Spec.TracksM (g : ℝ → M3 ℝ) (s : ℝ) (d : M3 (Dual ℝ)) : Prop where
  /-- row 0 -/
  r0 : TracksV (fun s => (g s).r0) s d.r0
  /-- row 1 -/
  r1 : TracksV (fun s => (g s).r1) s d.r1
  /-- row 2 -/
  r2 : TracksV (fun s => (g s).r2) s d.r2

section
variable {s : ℝ} {a mu P r v p e f h U0 U1 U2 s0 r0 E M H N t chi alpha sg : ℝ → ℝ}
variable {a' mu' P' r' v' p' e' f' h' U0' U1' U2' s0' r0' E' M' H' N' t' chi' alpha' sg' : Dual ℝ}
variable {rv vv ev nv hv : ℝ → V3 ℝ} {rv' vv' ev' nv' hv' : V3 (Dual ℝ)}

theorem C62_orb_period (ha : Tracks a s a') (hmu : Tracks mu s mu') (h1 : 0 < a s) (h2 : 0 < mu s) :
    Tracks (fun s => orb_period (a s) (mu s)) s (orb_period a' mu') :=
  ((Tracks.nat 2).mul .pi).mul (((ha.pow 3).div hmu h2.ne').sqrt (by positivity))

theorem C62_a_from_period (hP : Tracks P s P') (hmu : Tracks mu s mu') (h1 : P s ≠ 0) (h2 : 0 < mu s) :
    Tracks (fun s => a_from_period (P s) (mu s)) s (a_from_period P' mu') :=
  ((((hP.pow 2).mul hmu).div (Tracks.nat 4) (by norm_num)).div (Tracks.pi.pow 2) (by positivity)).cbrt
    (by have := Real.pi_pos; positivity)

theorem C62_angular_momentum (hr : TracksV rv s rv') (hv : TracksV vv s vv') :
    TracksV (fun s => angular_momentum (rv s) (vv s)) s (angular_momentum rv' vv') := hr.cross hv

theorem C62_semimajor_axis (hr : Tracks r s r') (hv : Tracks v s v') (hmu : Tracks mu s mu') (h1 : r s ≠ 0)
    (h2 : mu s ≠ 0) (h3 : 2 / r s - v s ^ 2 / mu s ≠ 0) :
    Tracks (fun s => semimajor_axis (r s) (v s) (mu s)) s (semimajor_axis r' v' mu') :=
  (Tracks.nat 1).div (((Tracks.nat 2).div hr h1).sub ((hv.pow 2).div hmu h2)) (by simpa using h3)

theorem C62_eccentricity_vector (hr : TracksV rv s rv') (hv : TracksV vv s vv') (hmu : Tracks mu s mu')
    (h1 : rv s ≠ ⟨0, 0, 0⟩) (h2 : mu s ≠ 0) :
    TracksV (fun s => eccentricity_vector (rv s) (vv s) (mu s)) s (eccentricity_vector rv' vv' mu') :=
  ((hv.cross (hr.cross hv)).div hmu h2).sub (hr.div (hr.norm h1) ((V3.norm_pos _).2 h1).ne')

theorem C62_semiparameter (hh : Tracks h s h') (hmu : Tracks mu s mu') (h2 : mu s ≠ 0) :
    Tracks (fun s => semiparameter (h s) (mu s)) s (semiparameter h' mu') := (hh.pow 2).div hmu h2

theorem C62_mean_motion (hP : Tracks P s P') (h1 : P s ≠ 0) :
    Tracks (fun s => mean_motion (P s)) s (mean_motion P') := ((Tracks.nat 2).mul .pi).div hP h1

theorem C62_equ_of_orbit (hp : Tracks p s p') (he : Tracks e s e') (hf : Tracks f s f')
    (h0 : 1 + e s * Real.cos (f s) ≠ 0) :
    Tracks (fun s => equ_of_orbit (p s) (e s) (f s)) s (equ_of_orbit p' e' f') :=
  hp.div ((Tracks.nat 1).add (he.mul hf.cos)) (by simpa using h0)

theorem C62_equ_of_orb_uvi (h0 : Tracks U0 s U0') (h1 : Tracks U1 s U1') (h2 : Tracks U2 s U2') (hr : Tracks r s r')
    (hs : Tracks s0 s s0') :
    Tracks (fun s => equ_of_orb_uvi (U0 s) (U1 s) (U2 s) (r s) (s0 s)) s (equ_of_orb_uvi U0' U1' U2' r' s0') :=
  ((hr.mul h0).add (hs.mul h1)).add h2

theorem C62_radii (hp : Tracks p s p') (he : Tracks e s e') :
    (1 + e s ≠ 0 → Tracks (fun s => radius_periapsis (p s) (e s)) s (radius_periapsis p' e')) ∧
    (1 - e s ≠ 0 → Tracks (fun s => radius_apoapsis (p s) (e s)) s (radius_apoapsis p' e')) :=
  ⟨fun h => hp.div ((Tracks.nat 1).add he) (by simpa using h),
   fun h => hp.div ((Tracks.nat 1).sub he) (by simpa using h)⟩

theorem C62_sizes (ha : Tracks a s a') (hp : Tracks p s p') (he : Tracks e s e') :
    Tracks (fun s => semipara_from_ae (a s) (e s)) s (semipara_from_ae a' e') ∧
    (1 - e s ^ 2 ≠ 0 → Tracks (fun s => a_from_pe (p s) (e s)) s (a_from_pe p' e')) :=
  ⟨ha.mul ((Tracks.nat 1).sub (he.pow 2)), fun h => hp.div ((Tracks.nat 1).sub (he.pow 2)) (by simpa using h)⟩

theorem C62_sigma (hr : TracksV rv s rv') (hv : TracksV vv s vv') (hmu : Tracks mu s mu') (h0 : 0 < mu s) :
    Tracks (fun s => sigma_fn (rv s) (vv s) (mu s)) s (sigma_fn rv' vv' mu') :=
  (hr.dot hv).div (hmu.sqrt h0) (Real.sqrt_pos.2 h0).ne'

theorem C62_lagrange (h1 : Tracks U1 s U1') (h2 : Tracks U2 s U2') (hs : Tracks s0 s s0') (hr : Tracks r s r')
    (hr0 : Tracks r0 s r0') (hmu : Tracks mu s mu') (hr1 : r s ≠ 0) (hr2 : r0 s ≠ 0) (h0 : 0 < mu s) :
    Tracks (fun s => lagrange_F (U2 s) (r0 s)) s (lagrange_F U2' r0') ∧
    Tracks (fun s => lagrange_G (U1 s) (U2 s) (s0 s) (r0 s) (mu s)) s (lagrange_G U1' U2' s0' r0' mu') ∧
    Tracks (fun s => lagrange_Ft (U1 s) (r s) (r0 s) (mu s)) s (lagrange_Ft U1' r' r0' mu') ∧
    Tracks (fun s => lagrange_Gt (U2 s) (r s)) s (lagrange_Gt U2' r') :=
  ⟨(Tracks.nat 1).sub (h2.div hr0 hr2) |>.congr (.of_eq (by funext; simp [lagrange_F])),
   ((hr0.mul h1).add (hs.mul h2)).div (hmu.sqrt h0) (Real.sqrt_pos.2 h0).ne',
   (((hmu.sqrt h0).neg.div hr hr1).mul h1).div hr0 hr2,
   (Tracks.nat 1).sub (h2.div hr hr1) |>.congr (.of_eq (by funext; simp [lagrange_Gt]))⟩

theorem C62_kepler_equ (hE : Tracks E s E') (he : Tracks e s e') (hM : Tracks M s M') (hH : Tracks H s H')
    (hN : Tracks N s N') :
    Tracks (fun s => kepler_equ_elps (E s) (e s) (M s)) s (kepler_equ_elps E' e' M') ∧
    Tracks (fun s => dE (E s) (e s)) s (dE E' e') ∧
    Tracks (fun s => kepler_equ_hypb (H s) (e s) (N s)) s (kepler_equ_hypb H' e' N') ∧
    Tracks (fun s => dH (H s) (e s)) s (dH H' e') :=
  ⟨(hE.sub (he.mul hE.sin)).sub hM, (Tracks.nat 1).sub (he.mul hE.cos), ((he.mul hH.sinh).sub hH).sub hN,
   (he.mul hH.cosh).sub (Tracks.nat 1)⟩

theorem C62_mean_anomaly (ha : Tracks a s a') (ht : Tracks t s t') (hmu : Tracks mu s mu') (h0 : 0 < mu s) :
    (0 < a s → Tracks (fun s => mean_anomaly_elps (a s) (t s) (mu s)) s (mean_anomaly_elps a' t' mu')) ∧
    (a s < 0 → Tracks (fun s => mean_anomaly_hypb (a s) (t s) (mu s)) s (mean_anomaly_hypb a' t' mu')) := by
  refine ⟨fun h => ((hmu.div (ha.pow 3) (by positivity)).sqrt (by positivity)).mul ht, fun h => ?_⟩
  have h3 : 0 < -(a s ^ 3) := by have := pow_pos (neg_pos.2 h) 3; nlinarith
  exact ((hmu.div (ha.pow 3).neg h3.ne').sqrt (by positivity)).mul ht

theorem C62_generalized_anomaly (hal : Tracks alpha s alpha') (hs : Tracks sg s sg') (hs0 : Tracks s0 s s0')
    (ht : Tracks t s t') (hmu : Tracks mu s mu') (h0 : 0 < mu s) :
    Tracks (fun s => generalized_anomaly (alpha s) (sg s) (s0 s) (t s) (mu s)) s
      (generalized_anomaly alpha' sg' s0' t' mu') := (((hal.mul (hmu.sqrt h0)).mul ht).add hs).sub hs0

/-- C62: the universal functions off the parabola. -/
theorem C62_ufunc (hc : Tracks chi s chi') (ha : Tracks alpha s alpha') (h0 : alpha s ≠ 0) :
    Tracks (fun s => ufunc0 (chi s) (alpha s)) s (ufunc0 chi' alpha') ∧
    Tracks (fun s => ufunc1 (chi s) (alpha s)) s (ufunc1 chi' alpha') ∧
    Tracks (fun s => ufunc2 (chi s) (alpha s)) s (ufunc2 chi' alpha') ∧
    Tracks (fun s => ufunc3 (chi s) (alpha s)) s (ufunc3 chi' alpha') ∧
    Tracks (fun s => ufunc4 (chi s) (alpha s)) s (ufunc4 chi' alpha') ∧
    Tracks (fun s => ufunc5 (chi s) (alpha s)) s (ufunc5 chi' alpha') := by
  have one := @Tracks.nat s 1
  have two := @Tracks.nat s 2
  have six := @Tracks.nat s 6
  rcases lt_or_gt_of_ne h0 with hn | hp
  · have hl1 : (JFun.lt (ℓ 0 : Dual ℝ) alpha') = false := by
      have : JFun.lt (ℓ 0 : Dual ℝ) alpha' = decide ((0 : ℕ) < alpha'.val) := rfl
      rw [this, ha.val]; simpa using hn.le
    have hl2 : (JFun.lt alpha' (ℓ 0 : Dual ℝ)) = true := by
      have : JFun.lt alpha' (ℓ 0 : Dual ℝ) = decide (alpha'.val < (0 : ℕ)) := rfl
      rw [this, ha.val]; simpa using hn
    have hev : ∀ᶠ x in nhds s, alpha x < 0 := ha.deriv.continuousAt.eventually (gt_mem_nhds hn)
    have hq := ha.neg.sqrt (neg_pos.2 hn)
    have hq0 : Real.sqrt (-alpha s) ≠ 0 := (Real.sqrt_pos.2 (neg_pos.2 hn)).ne'
    have hqc := hq.mul hc
    refine ⟨?_, ?_, ?_, ?_, ?_, ?_⟩
    · have := hqc.cosh
      simp only [ufunc0, hl1, hl2, Bool.false_eq_true, if_false, if_true]
      refine this.congr ?_
      filter_upwards [hev] with x hx
      simp [hx, hx.not_gt]
    · have := hqc.sinh.div hq hq0
      simp only [ufunc1, hl1, hl2, Bool.false_eq_true, if_false, if_true]
      refine this.congr ?_
      filter_upwards [hev] with x hx
      simp [hx, hx.not_gt]
    · have := (hqc.cosh.sub one).div ha.neg (neg_ne_zero.2 h0)
      simp only [ufunc2, hl1, hl2, Bool.false_eq_true, if_false, if_true]
      refine this.congr ?_
      filter_upwards [hev] with x hx
      simp [hx, hx.not_gt]
    · have := ((hqc.sub hqc.sinh).div ha h0).div hq hq0
      simp only [ufunc3, hl1, hl2, Bool.false_eq_true, if_false, if_true]
      refine this.congr ?_
      filter_upwards [hev] with x hx
      simp [hx, hx.not_gt]
    · have := (((ha.mul (hc.pow 2)).sub two).add (two.mul hqc.cosh)).div (two.mul (ha.pow 2))
        (by simpa using h0)
      simp only [ufunc4, hl1, hl2, Bool.false_eq_true, if_false, if_true]
      refine this.congr ?_
      filter_upwards [hev] with x hx
      simp [hx, hx.not_gt]
    · have := ((((ha.pow 2).mul (hc.pow 3)).sub ((six.mul ha).mul hc)).sub ((six.mul hq).mul hqc.sinh)).div
        (six.mul (ha.pow 3)) (by simpa using h0)
      simp only [ufunc5, hl1, hl2, Bool.false_eq_true, if_false, if_true]
      refine this.congr ?_
      filter_upwards [hev] with x hx
      simp [hx, hx.not_gt]
  · have hl1 : (JFun.lt (ℓ 0 : Dual ℝ) alpha') = true := by
      have : JFun.lt (ℓ 0 : Dual ℝ) alpha' = decide ((0 : ℕ) < alpha'.val) := rfl
      rw [this, ha.val]; simpa using hp
    have hev : ∀ᶠ x in nhds s, 0 < alpha x := ha.deriv.continuousAt.eventually (lt_mem_nhds hp)
    have hq := ha.sqrt hp
    have hq0 : Real.sqrt (alpha s) ≠ 0 := (Real.sqrt_pos.2 hp).ne'
    have hqc := hq.mul hc
    refine ⟨?_, ?_, ?_, ?_, ?_, ?_⟩
    · have := hqc.cos
      simp only [ufunc0, hl1, if_true]
      refine this.congr ?_
      filter_upwards [hev] with x hx
      simp [hx]
    · have := hqc.sin.div hq hq0
      simp only [ufunc1, hl1, if_true]
      refine this.congr ?_
      filter_upwards [hev] with x hx
      simp [hx]
    · have := (one.sub hqc.cos).div ha h0
      simp only [ufunc2, hl1, if_true]
      refine this.congr ?_
      filter_upwards [hev] with x hx
      simp [hx]
    · have := ((hqc.sub hqc.sin).div ha h0).div hq hq0
      simp only [ufunc3, hl1, if_true]
      refine this.congr ?_
      filter_upwards [hev] with x hx
      simp [hx]
    · have := (((ha.mul (hc.pow 2)).sub two).add (two.mul hqc.cos)).div (two.mul (ha.pow 2))
        (by simpa using h0)
      simp only [ufunc4, hl1, if_true]
      refine this.congr ?_
      filter_upwards [hev] with x hx
      simp [hx]
    · have := ((((ha.pow 2).mul (hc.pow 3)).sub ((six.mul ha).mul hc)).add ((six.mul hq).mul hqc.sin)).div
        (six.mul (ha.pow 3)) (by simpa using h0)
      simp only [ufunc5, hl1, if_true]
      refine this.congr ?_
      filter_upwards [hev] with x hx
      simp [hx]

/-- What is returned at `alpha = 0`: the derivative with `alpha` held fixed, whatever the tangent of `alpha`. -/
theorem C62_ufunc_at_zero (hc : Tracks chi s chi') (h0 : alpha'.val = 0) :
    Tracks (fun s => ufunc0 (chi s) 0) s (ufunc0 chi' alpha') ∧
    Tracks (fun s => ufunc1 (chi s) 0) s (ufunc1 chi' alpha') ∧
    Tracks (fun s => ufunc2 (chi s) 0) s (ufunc2 chi' alpha') ∧
    Tracks (fun s => ufunc3 (chi s) 0) s (ufunc3 chi' alpha') ∧
    Tracks (fun s => ufunc4 (chi s) 0) s (ufunc4 chi' alpha') ∧
    Tracks (fun s => ufunc5 (chi s) 0) s (ufunc5 chi' alpha') := by
  have hl1 : (JFun.lt (ℓ 0 : Dual ℝ) alpha') = false := by
    have : JFun.lt (ℓ 0 : Dual ℝ) alpha' = decide ((0 : ℕ) < alpha'.val) := rfl
    rw [this, h0]; simp
  have hl2 : (JFun.lt alpha' (ℓ 0 : Dual ℝ)) = false := by
    have : JFun.lt alpha' (ℓ 0 : Dual ℝ) = decide (alpha'.val < (0 : ℕ)) := rfl
    rw [this, h0]; simp
  refine ⟨?_, ?_, ?_, ?_, ?_, ?_⟩
  · simp only [ufunc0, hl1, hl2, Bool.false_eq_true, if_false]
    exact (Tracks.onesLike chi').congr (.of_eq (by funext x; simp))
  · simp only [ufunc1, hl1, hl2, Bool.false_eq_true, if_false]
    exact hc.congr (.of_eq (by funext x; simp))
  · simp only [ufunc2, hl1, hl2, Bool.false_eq_true, if_false]
    exact ((hc.pow 2).div (Tracks.nat 2) (by norm_num)).congr (.of_eq (by funext x; simp))
  · simp only [ufunc3, hl1, hl2, Bool.false_eq_true, if_false]
    exact ((hc.pow 3).div (Tracks.nat 6) (by norm_num)).congr (.of_eq (by funext x; simp))
  · simp only [ufunc4, hl1, hl2, Bool.false_eq_true, if_false]
    exact ((hc.pow 4).div (Tracks.nat 24) (by norm_num)).congr (.of_eq (by funext x; simp))
  · simp only [ufunc5, hl1, hl2, Bool.false_eq_true, if_false]
    exact ((hc.pow 5).div (Tracks.nat 120) (by norm_num)).congr (.of_eq (by funext x; simp))

/-- C62 fails for the universal functions at `alpha = 0`: the derivative with respect to `alpha` that forward mode
returns is 0, the true one is `-χ²/2`, `-χ³/6`, `-χ⁴/24`, `-χ⁵/120`. -/
theorem C62_ufunc_refuted (c : ℝ) (hc : c ≠ 0) :
    (Dual.dot (ufunc0 ⟨c, none⟩ ⟨0, some 1⟩) = 0 ∧ HasDerivAt (fun a => ufunc0 c a) (-(c ^ 2 / 2)) 0) ∧
    (Dual.dot (ufunc1 ⟨c, none⟩ ⟨0, some 1⟩) = 0 ∧ HasDerivAt (fun a => ufunc1 c a) (-(c ^ 3 / 6)) 0) ∧
    (Dual.dot (ufunc2 ⟨c, none⟩ ⟨0, some 1⟩) = 0 ∧ HasDerivAt (fun a => ufunc2 c a) (-(c ^ 4 / 24)) 0) ∧
    (Dual.dot (ufunc3 ⟨c, none⟩ ⟨0, some 1⟩) = 0 ∧ HasDerivAt (fun a => ufunc3 c a) (-(c ^ 5 / 120)) 0) ∧
    ¬ Tracks (fun a => ufunc2 c a) 0 (ufunc2 ⟨c, none⟩ ⟨0, some 1⟩) := by
  have h := C62_ufunc_at_zero (s := 0) (alpha' := ⟨0, some 1⟩) (Tracks.const c) rfl
  obtain ⟨h0, h1, h2, h3, -, -⟩ := h
  have hz : ∀ {k : ℝ} {d : Dual ℝ}, Tracks (fun _ => k) 0 d → Dual.dot d = 0 := fun {k d} hd =>
    hd.deriv.unique (hasDerivAt_const 0 k)
  obtain ⟨d0, d1, d2, d3⟩ := C09_deriv_alpha c 0
  have e2 : HasDerivAt (fun a => ufunc2 c a) (-(c ^ 4 / 24)) 0 := d2.congr_deriv (by simp [ufunc3, ufunc4]; ring)
  refine ⟨⟨hz h0, d0.congr_deriv (by simp [ufunc1]; ring)⟩, ⟨hz h1, d1.congr_deriv (by simp [ufunc2, ufunc3]; ring)⟩,
    ⟨hz h2, e2⟩, ⟨hz h3, d3.congr_deriv (by simp [ufunc4, ufunc5]; ring)⟩, fun ht => ?_⟩
  have := ht.deriv.unique e2
  rw [hz h2] at this
  have : c ^ 4 = 0 := by linarith
  exact hc (pow_eq_zero_iff (by norm_num) |>.1 this)

/-- C62: the universal Kepler equation and its derivative. -/
theorem C62_kepler_equ_uni (hc : Tracks chi s chi') (ha : Tracks alpha s alpha') (hr : Tracks r0 s r0')
    (hs : Tracks s0 s s0') (ht : Tracks t s t') (hmu : Tracks mu s mu') (h0 : alpha s ≠ 0) (hm : 0 < mu s) :
    Tracks (fun s => kepler_equ_uni (chi s) (alpha s) (r0 s) (s0 s) (t s) (mu s)) s
      (kepler_equ_uni chi' alpha' r0' s0' t' mu') ∧
    Tracks (fun s => dchi (chi s) (alpha s) (r0 s) (s0 s)) s (dchi chi' alpha' r0' s0') := by
  obtain ⟨u0, u1, u2, u3, -, -⟩ := C62_ufunc hc ha h0
  exact ⟨(((hr.mul u1).add (hs.mul u2)).add u3).sub ((hmu.sqrt hm).mul ht), ((hr.mul u0).add (hs.mul u1)).add u2⟩

/-- The test of the repository (`tests/test_kepler_equation.py:188`), for every state: the forward-mode derivative
of `kepler_equ_uni` with respect to `chi` is `dchi`, on parabolas too. -/
theorem C62_dchi (c al r0 s0 t mu : ℝ) :
    Dual.dot (kepler_equ_uni (⟨c, some 1⟩ : Dual ℝ) ⟨al, none⟩ ⟨r0, none⟩ ⟨s0, none⟩ ⟨t, none⟩ ⟨mu, none⟩)
      = dchi c al r0 s0 := by
  have hu : Tracks (fun x => ufunc1 x al) c (ufunc1 ⟨c, some 1⟩ ⟨al, none⟩) ∧
      Tracks (fun x => ufunc2 x al) c (ufunc2 ⟨c, some 1⟩ ⟨al, none⟩) ∧
      Tracks (fun x => ufunc3 x al) c (ufunc3 ⟨c, some 1⟩ ⟨al, none⟩) := by
    rcases eq_or_ne al 0 with rfl | h
    · obtain ⟨-, h1, h2, h3, -⟩ := C62_ufunc_at_zero (alpha' := ⟨0, none⟩) (Tracks.var c) rfl
      exact ⟨h1, h2, h3⟩
    · obtain ⟨-, h1, h2, h3, -⟩ := C62_ufunc (Tracks.var c) (Tracks.const al) h
      exact ⟨h1, h2, h3⟩
  have hk : Tracks (fun x => kepler_equ_uni x al r0 s0 t mu) c
      (kepler_equ_uni (⟨c, some 1⟩ : Dual ℝ) ⟨al, none⟩ ⟨r0, none⟩ ⟨s0, none⟩ ⟨t, none⟩ ⟨mu, none⟩) :=
    ((((Tracks.const r0).mul hu.1).add ((Tracks.const s0).mul hu.2.1)).add hu.2.2).sub
      ((Tracks.const (Real.sqrt mu)).mul (Tracks.const t))
  obtain ⟨-, d1, d2, d3, -⟩ := C08_deriv c al
  refine hk.deriv.unique ((((d1.const_mul r0).add (d2.const_mul s0)).add d3).sub_const (Real.sqrt mu * t))

end

section
variable {s : ℝ} {mu chi alpha r0 s0 U2 U4 U5 t p e i Ω ω f an J Req rmin : ℝ → ℝ}
variable {mu' chi' alpha' r0' s0' U2' U4' U5' t' p' e' i' Ω' ω' f' an' J' Req' rmin' : Dual ℝ}
variable {rv vv ev nv hv : ℝ → V3 ℝ} {rv' vv' ev' nv' hv' : V3 (Dual ℝ)}

theorem C62_C_func (hc : Tracks chi s chi') (h2 : Tracks U2 s U2') (h4 : Tracks U4 s U4') (h5 : Tracks U5 s U5')
    (ht : Tracks t s t') (hmu : Tracks mu s mu') (h0 : 0 < mu s) :
    Tracks (fun s => C_func (chi s) (U2 s) (U4 s) (U5 s) (t s) (mu s)) s (C_func chi' U2' U4' U5' t' mu') :=
  ((((Tracks.nat 3).mul h5).sub (hc.mul h4)).sub (((hmu.sqrt h0).mul ht).mul h2)).div (hmu.sqrt h0)
    (Real.sqrt_pos.2 h0).ne'

/-- C62: the propagated state, for given `chi`. -/
theorem C62_keplerStep (hc : Tracks chi s chi') (ha : Tracks alpha s alpha') (hr : Tracks r0 s r0')
    (hs : Tracks s0 s s0') (hrv : TracksV rv s rv') (hvv : TracksV vv s vv') (hmu : Tracks mu s mu')
    (h0 : alpha s ≠ 0) (hm : 0 < mu s) (hr0 : r0 s ≠ 0) (hd : dchi (chi s) (alpha s) (r0 s) (s0 s) ≠ 0) :
    TracksV (fun s => (keplerStep (chi s) (alpha s) (r0 s) (s0 s) (rv s) (vv s) (mu s)).1) s
      (keplerStep chi' alpha' r0' s0' rv' vv' mu').1 ∧
    TracksV (fun s => (keplerStep (chi s) (alpha s) (r0 s) (s0 s) (rv s) (vv s) (mu s)).2) s
      (keplerStep chi' alpha' r0' s0' rv' vv' mu').2 := by
  obtain ⟨u0, u1, u2, -, -, -⟩ := C62_ufunc hc ha h0
  have hrad := C62_equ_of_orb_uvi u0 u1 u2 hr hs
  obtain ⟨hF, hG, hFt, hGt⟩ := C62_lagrange u1 u2 hs hrad hr hmu hd hr0 hm
  exact ⟨(TracksV.smul hF hrv).add (TracksV.smul hG hvv), (TracksV.smul hFt hrv).add (TracksV.smul hGt hvv)⟩

theorem C62_wrapNeg {x : ℝ → ℝ} {x' : Dual ℝ} (hx : Tracks x s x') (h0 : x s ≠ 0) :
    Tracks (fun s => wrapNeg (x s)) s (wrapNeg x') := by
  rcases lt_or_gt_of_ne h0 with hn | hp
  · have hl : JFun.lt x' (ℓ 0 : Dual ℝ) = true := by
      have : JFun.lt x' (ℓ 0 : Dual ℝ) = decide (x'.val < (0 : ℕ)) := rfl
      rw [this, hx.val]; simpa using hn
    rw [wrapNeg, hl]
    refine (((Tracks.nat 2).mul Tracks.pi).add hx).congr ?_
    filter_upwards [hx.deriv.continuousAt.eventually (gt_mem_nhds hn)] with y hy
    simp [wrapNeg, hy]
  · have hl : JFun.lt x' (ℓ 0 : Dual ℝ) = false := by
      have : JFun.lt x' (ℓ 0 : Dual ℝ) = decide (x'.val < (0 : ℕ)) := rfl
      rw [this, hx.val]; simpa using hp.le
    rw [wrapNeg, hl]
    refine hx.congr ?_
    filter_upwards [hx.deriv.continuousAt.eventually (lt_mem_nhds hp)] with y hy
    simp [wrapNeg, hy.le]

/-- C62: the classical elements. Inclination off the equator; the angles where the vectors are not parallel. -/
theorem C62_inclination (hh : TracksV hv s hv') (h0 : hv s ≠ ⟨0, 0, 0⟩) (h1 : (hv s).x ≠ 0 ∨ (hv s).y ≠ 0) :
    Tracks (fun s => inclination (hv s)) s (inclination hv') := by
  have hn := (V3.norm_pos _).2 h0
  have hlt : ((hv s).z / V3.norm (hv s)) ^ 2 < 1 := by
    rw [div_pow, div_lt_one (by positivity), V3.norm_sq]
    unfold V3.dot
    rcases h1 with h | h
    · nlinarith [mul_self_pos.2 h, mul_self_nonneg (hv s).y]
    · nlinarith [mul_self_pos.2 h, mul_self_nonneg (hv s).x]
  refine (hh.z.div (hh.norm h0) hn.ne').arccos ?_ ?_
  · intro h; rw [h] at hlt; norm_num at hlt
  · intro h; rw [h] at hlt; norm_num at hlt

theorem C62_true_anomaly (hr : TracksV rv s rv') (he : TracksV ev s ev') (h0 : V3.cross (ev s) (rv s) ≠ ⟨0, 0, 0⟩) :
    Tracks (fun s => true_anomaly (rv s) (ev s)) s (true_anomaly rv' ev') := by
  have hn := (V3.norm_pos _).2 h0
  refine C62_wrapNeg (((he.cross hr).norm h0).arctan2 (he.dot hr) (Or.inr hn.ne')) ?_
  intro h
  rw [arctan2_real, Complex.arg_eq_zero_iff] at h
  exact hn.ne' h.2

theorem C62_argument_of_periapsis (hn : TracksV nv s nv') (he : TracksV ev s ev')
    (h0 : V3.cross (nv s) (ev s) ≠ ⟨0, 0, 0⟩) :
    Tracks (fun s => argument_of_periapsis (nv s) (ev s)) s (argument_of_periapsis nv' ev') := by
  have hp := (V3.norm_pos _).2 h0
  refine C62_wrapNeg (((hn.cross he).norm h0).arctan2 (hn.dot he) (Or.inr hp.ne')) ?_
  intro h
  rw [arctan2_real, Complex.arg_eq_zero_iff] at h
  exact hp.ne' h.2

/-- `arctan2` across the negative `x` axis, in terms of the opposite vector. -/
theorem arctan2_opposite {x y : ℝ → ℝ} {x' y' : Dual ℝ} (hx : Tracks x s x') (hy : Tracks y s y') (h0 : x s < 0)
    (h1 : y s = 0) : Tracks (fun s => Real.pi + Complex.arg ⟨-x s, -y s⟩) s (JFun.arctan2 y' x') := by
  have h := (Tracks.const Real.pi).add (hy.neg.arctan2 hx.neg (Or.inl (neg_pos.2 h0)))
  have hv : (JFun.arctan2 y' x').val = Real.pi + Complex.arg ⟨-x s, -y s⟩ := by
    have e1 : (JFun.arctan2 y' x').val = Complex.arg ⟨x'.val, y'.val⟩ := rfl
    have e2 : (⟨x s, 0⟩ : ℂ) = ((x s : ℝ) : ℂ) := by apply Complex.ext <;> simp
    have e3 : (⟨-x s, -0⟩ : ℂ) = ((-x s : ℝ) : ℂ) := by apply Complex.ext <;> simp
    rw [e1, hx.val, hy.val, h1, e2, e3, Complex.arg_ofReal_of_neg h0, Complex.arg_ofReal_of_nonneg (by linarith), add_zero]
  refine ⟨hv, ?_⟩
  convert h.deriv using 1
  have d1 : ∀ a b : Dual ℝ, Dual.dot (JFun.arctan2 a b) = Dual.dot a * (b.val / (a.val ^ 2 + b.val ^ 2))
      + Dual.dot b * -a.val / (a.val ^ 2 + b.val ^ 2) := by
    intro a b
    refine (Dual.dot_addTan _ _).trans ?_
    rw [Dual.dot_map _ _ (by simp), Dual.dot_map _ _ (by simp)]; rfl
  have d2 : ∀ a : Dual ℝ, Dual.dot (-a) = -Dual.dot a := fun a => Dual.dot_map _ _ neg_zero
  have d3 : ∀ (c : ℝ) (a : Dual ℝ), Dual.dot (⟨c, none⟩ + a) = Dual.dot a := fun c a => rfl
  have v1 : ∀ a : Dual ℝ, (-a).val = -a.val := fun a => rfl
  rw [d3, d1, d1, d2, d2, v1, v1]
  ring

/-- Right ascension: everywhere but on the positive `x` axis, where it jumps. -/
theorem C62_right_ascension (hn : TracksV nv s nv') (h0 : (nv s).y ≠ 0 ∨ (nv s).x < 0) :
    Tracks (fun s => right_ascension (nv s)) s (right_ascension nv') := by
  by_cases hy : (nv s).y = 0
  · have hx : (nv s).x < 0 := h0.resolve_left (fun h => h hy)
    have h := arctan2_opposite hn.x hn.y hx hy
    have hl : JFun.lt (JFun.arctan2 nv'.y nv'.x) (ℓ 0 : Dual ℝ) = false := by
      have e1 : JFun.lt (JFun.arctan2 nv'.y nv'.x) (ℓ 0 : Dual ℝ)
        = decide ((JFun.arctan2 nv'.y nv'.x).val < ((0 : ℕ) : ℝ)) := rfl
      have e3 : (⟨-(nv s).x, -(nv s).y⟩ : ℂ) = ((-(nv s).x : ℝ) : ℂ) := by apply Complex.ext <;> simp [hy]
      rw [e1, h.val, e3, Complex.arg_ofReal_of_nonneg (by linarith)]
      simpa using Real.pi_pos.le
    rw [right_ascension, wrapNeg, hl]
    refine h.congr ?_
    filter_upwards [hn.x.deriv.continuousAt.eventually (gt_mem_nhds hx)] with q hq
    have key : ∀ x y : ℝ, x < 0 → (if Complex.arg ⟨x, y⟩ < 0 then 2 * Real.pi + Complex.arg ⟨x, y⟩
        else Complex.arg ⟨x, y⟩) = Real.pi + Complex.arg ⟨-x, -y⟩ := by
      intro x y hx
      have e4 : (⟨-x, -y⟩ : ℂ) = -⟨x, y⟩ := by apply Complex.ext <;> simp
      rw [e4]
      rcases lt_or_ge y 0 with hy | hy
      · rw [if_pos (Complex.arg_neg_iff.2 hy), Complex.arg_neg_eq_arg_add_pi_of_im_neg hy]; ring
      · rw [if_neg (not_lt.2 (Complex.arg_nonneg_iff.2 hy))]
        rcases hy.lt_or_eq with hy | hy
        · rw [Complex.arg_neg_eq_arg_sub_pi_of_im_pos hy]; ring
        · have e5 : (⟨x, y⟩ : ℂ) = ((x : ℝ) : ℂ) := by apply Complex.ext <;> simp [← hy]
          rw [e5, ← Complex.ofReal_neg, Complex.arg_ofReal_of_neg hx, Complex.arg_ofReal_of_nonneg (by linarith)]; ring
    have := key (nv q).x (nv q).y hq
    simpa [wrapNeg, right_ascension] using this
  replace h0 : (nv s).y ≠ 0 := hy
  refine C62_wrapNeg (hn.y.arctan2 hn.x (Or.inr h0)) ?_
  intro h
  rw [arctan2_real, Complex.arg_eq_zero_iff] at h
  exact h0 h.2

theorem C62_rotmat (ha : Tracks an s an') :
    TracksM (fun s => rotmat3dx (an s)) s (rotmat3dx an') ∧ TracksM (fun s => rotmat3dy (an s)) s (rotmat3dy an') ∧
    TracksM (fun s => rotmat3dz (an s)) s (rotmat3dz an') := by
  have z := @Tracks.nat s 0
  have o := @Tracks.nat s 1
  exact ⟨⟨⟨o, z, z⟩, ⟨z, ha.cos, ha.sin.neg⟩, ⟨z, ha.sin, ha.cos⟩⟩,
    ⟨⟨ha.cos, z, ha.sin⟩, ⟨z, o, z⟩, ⟨ha.sin.neg, z, ha.cos⟩⟩, ⟨⟨ha.cos, ha.sin.neg, z⟩, ⟨ha.sin, ha.cos, z⟩, ⟨z, z, o⟩⟩⟩

theorem Spec.TracksM.mulVec {g : ℝ → M3 ℝ} {m : M3 (Dual ℝ)} (hg : TracksM g s m) (hr : TracksV rv s rv') :
    TracksV (fun s => M3.mulVec (g s) (rv s)) s (M3.mulVec m rv') := ⟨hg.r0.dot hr, hg.r1.dot hr, hg.r2.dot hr⟩

theorem Spec.TracksM.mul {g h : ℝ → M3 ℝ} {m n : M3 (Dual ℝ)} (hg : TracksM g s m) (hh : TracksM h s n) :
    TracksM (fun s => M3.mul (g s) (h s)) s (M3.mul m n) := by
  have hx : TracksV (fun s => ⟨(h s).r0.x, (h s).r1.x, (h s).r2.x⟩) s ⟨n.r0.x, n.r1.x, n.r2.x⟩ :=
    ⟨hh.r0.x, hh.r1.x, hh.r2.x⟩
  have hy : TracksV (fun s => ⟨(h s).r0.y, (h s).r1.y, (h s).r2.y⟩) s ⟨n.r0.y, n.r1.y, n.r2.y⟩ :=
    ⟨hh.r0.y, hh.r1.y, hh.r2.y⟩
  have hz : TracksV (fun s => ⟨(h s).r0.z, (h s).r1.z, (h s).r2.z⟩) s ⟨n.r0.z, n.r1.z, n.r2.z⟩ :=
    ⟨hh.r0.z, hh.r1.z, hh.r2.z⟩
  exact ⟨⟨hg.r0.dot hx, hg.r0.dot hy, hg.r0.dot hz⟩, ⟨hg.r1.dot hx, hg.r1.dot hy, hg.r1.dot hz⟩,
    ⟨hg.r2.dot hx, hg.r2.dot hy, hg.r2.dot hz⟩⟩

theorem C62_coe2rv (hp : Tracks p s p') (he : Tracks e s e') (hi : Tracks i s i') (hΩ : Tracks Ω s Ω')
    (hω : Tracks ω s ω') (hf : Tracks f s f') (hmu : Tracks mu s mu') (h1 : 0 < p s) (h2 : 0 < mu s)
    (h3 : 1 + e s * Real.cos (f s) ≠ 0) :
    TracksV (fun s => (coe2rv (p s) (e s) (i s) (Ω s) (ω s) (f s) (mu s)).1) s (coe2rv p' e' i' Ω' ω' f' mu').1 ∧
    TracksV (fun s => (coe2rv (p s) (e s) (i s) (Ω s) (ω s) (f s) (mu s)).2) s (coe2rv p' e' i' Ω' ω' f' mu').2 := by
  have z := @Tracks.nat s 0
  have hR := (((C62_rotmat hΩ).2.2).mul (C62_rotmat hi).1).mul (C62_rotmat hω).2.2
  have hr : TracksV (fun s => perifocalPos (p s) (e s) (f s)) s (perifocalPos p' e' f') :=
    TracksV.smul (hp.div ((Tracks.nat 1).add (he.mul hf.cos)) (by simpa using h3)) ⟨hf.cos, hf.sin, z⟩
  have hv : TracksV (fun s => perifocalVel (p s) (e s) (f s) (mu s)) s (perifocalVel p' e' f' mu') :=
    TracksV.smul ((hmu.div hp h1.ne').sqrt (by positivity)) ⟨hf.sin.neg, he.add hf.cos, z⟩
  exact ⟨hR.mulVec hr, hR.mulVec hv⟩

/-- C62: the force models and the event, for a state and parameters that vary; the rest of the state is arbitrary. -/
theorem C62_gravity (tD : Dual ℝ) (tR : ℝ → ℝ) (rest' : List (Dual ℝ)) (rest : ℝ → List ℝ) (hr : TracksV rv s rv')
    (h0 : rv s ≠ ⟨0, 0, 0⟩) {args : ℝ → Args ℝ} {args' : Args (Dual ℝ)}
    (hmu : Tracks mu s mu') (hJ : Tracks J s J') (hR : Tracks Req s Req')
    (kmu : args' "mu" = some mu') (kmu' : ∀ s, args s "mu" = some (mu s))
    (kR : args' "R_eq" = some Req') (kR' : ∀ s, args s "R_eq" = some (Req s)) :
    (∃ g g', (∀ s, point_mass_grav (tR s) ⟨rv s, rest s⟩ (args s) = .ok (g s)) ∧
      point_mass_grav tD ⟨rv', rest'⟩ args' = .ok g' ∧ TracksV g s g') ∧
    (args' "J2" = some J' → (∀ s, args s "J2" = some (J s)) →
      ∃ g g', (∀ s, j2_acc (tR s) ⟨rv s, rest s⟩ (args s) = .ok (g s)) ∧ j2_acc tD ⟨rv', rest'⟩ args' = .ok g' ∧
        TracksV g s g') ∧
    (args' "J3" = some J' → (∀ s, args s "J3" = some (J s)) →
      ∃ g g', (∀ s, j3_acc (tR s) ⟨rv s, rest s⟩ (args s) = .ok (g s)) ∧ j3_acc tD ⟨rv', rest'⟩ args' = .ok g' ∧
        TracksV g s g') ∧
    (args' "J4" = some J' → (∀ s, args s "J4" = some (J s)) →
      ∃ g g', (∀ s, j4_acc (tR s) ⟨rv s, rest s⟩ (args s) = .ok (g s)) ∧ j4_acc tD ⟨rv', rest'⟩ args' = .ok g' ∧
        TracksV g s g') := by
  have hn := hr.norm h0
  have hn0 : V3.norm (rv s) ≠ 0 := ((V3.norm_pos _).2 h0).ne'
  have n : ∀ k, Tracks (fun _ => ((k : ℕ) : ℝ)) s (k : Dual ℝ) := fun k => Tracks.nat k
  refine ⟨?_, fun kJ kJ' => ?_, fun kJ kJ' => ?_, fun kJ kJ' => ?_⟩
  · refine ⟨_, _, fun s => by simp only [point_mass_grav, Args.get, kmu']; rfl, by
      simp only [point_mass_grav, Args.get, kmu]; rfl, ?_⟩
    have hm := (hmu.div (hn.pow 3) (pow_ne_zero 3 hn0)).neg
    exact ⟨hm.mul hr.x, hm.mul hr.y, hm.mul hr.z⟩
  · refine ⟨_, _, fun s => by simp only [j2_acc, Args.get, kmu', kJ', kR']; rfl, by
      simp only [j2_acc, Args.get, kmu, kJ, kR]; rfl, ?_⟩
    have hz := (hr.z.div hn hn0).pow 2
    have hf := ((((((n 3).div (n 2) (by norm_num)).neg.mul hmu).mul hJ).mul (hR.pow 2)).div (hn.pow 5) (pow_ne_zero 5 hn0))
    exact ⟨(hf.mul hr.x).mul ((n 1).sub ((n 5).mul hz)), (hf.mul hr.y).mul ((n 1).sub ((n 5).mul hz)),
      (hf.mul hr.z).mul ((n 3).sub ((n 5).mul hz))⟩
  · refine ⟨_, _, fun s => by simp only [j3_acc, Args.get, kmu', kJ', kR']; rfl, by
      simp only [j3_acc, Args.get, kmu, kJ, kR]; rfl, ?_⟩
    have hz := (hr.z.pow 3).div (hn.pow 2) (pow_ne_zero 2 hn0)
    have hf := ((((((n 5).div (n 2) (by norm_num)).neg.mul hmu).mul hJ).mul (hR.pow 3)).div (hn.pow 7) (pow_ne_zero 7 hn0))
    exact ⟨(hf.mul hr.x).mul (((n 3).mul hr.z).sub ((n 7).mul hz)), (hf.mul hr.y).mul (((n 3).mul hr.z).sub ((n 7).mul hz)),
      hf.mul ((((n 6).mul (hr.z.pow 2)).sub (((n 7).mul hz).mul hr.z)).sub
        (((n 3).div (n 5) (by norm_num)).mul (hn.pow 2)))⟩
  · refine ⟨_, _, fun s => by simp only [j4_acc, Args.get, kmu', kJ', kR']; rfl, by
      simp only [j4_acc, Args.get, kmu, kJ, kR]; rfl, ?_⟩
    have hz := (hr.z.div hn hn0).pow 2
    have hf := (((((n 15).div (n 8) (by norm_num)).mul hmu).mul hJ).mul (hR.pow 4)).div (hn.pow 7) (pow_ne_zero 7 hn0)
    have hxy := ((n 1).sub ((n 14).mul hz)).add ((n 21).mul (hz.pow 2))
    exact ⟨(hf.mul hr.x).mul hxy, (hf.mul hr.y).mul hxy,
      (hf.mul hr.z).mul (((n 5).sub (((n 70).mul hz).div (n 3) (by norm_num))).add ((n 21).mul (hz.pow 2)))⟩

theorem C62_radius_islow (tD : Dual ℝ) (tR : ℝ → ℝ) (rest' : List (Dual ℝ)) (rest : ℝ → List ℝ) (hr : TracksV rv s rv')
    (h0 : rv s ≠ ⟨0, 0, 0⟩) {args : ℝ → Args ℝ} {args' : Args (Dual ℝ)} (hm : Tracks rmin s rmin')
    (k : args' "rmin" = some rmin') (k' : ∀ s, args s "rmin" = some (rmin s)) :
    ∃ g g', (∀ s, radius_islow (tR s) ⟨rv s, rest s⟩ (args s) = .ok (g s)) ∧
      radius_islow tD ⟨rv', rest'⟩ args' = .ok g' ∧ Tracks g s g' := by
  refine ⟨_, _, fun s => by simp only [radius_islow, Args.get, k']; rfl, by
    simp only [radius_islow, Args.get, k]; rfl, ?_⟩
  exact (hr.norm h0).sub hm

/-- C62: the revolution count is locally constant off its jumps, and the derivative returned is 0. -/
theorem C62_nmax {rp r1 r2 : ℝ → ℝ} {rp' r1' r2' : Dual ℝ} (hrp : Tracks rp s rp') (h1 : Tracks r1 s r1')
    (h2 : Tracks r2 s r2') (ht : Tracks t s t') (hmu : Tracks mu s mu') (hne : r1 s ≠ r2 s) (hm : 0 < mu s)
    (hpos : 0 < max (r1 s) (r2 s) + rp s)
    (hj : ∀ k : ℤ, t s / (2 * Real.pi) * Real.sqrt (mu s / (1 / 2 * (max (r1 s) (r2 s) + rp s)) ^ 3) ≠ k) :
    Tracks (fun s => nmax_by_periapsis (rp s) (r1 s) (r2 s) (t s) (mu s)) s (nmax_by_periapsis rp' r1' r2' t' mu') := by
  have hmax : Tracks (fun s => max (r1 s) (r2 s)) s (JFun.maximum r1' r2') := by
    rcases lt_or_gt_of_ne hne with h | h
    · exact h1.max_right h2 h
    · exact h1.max_left h2 h
  have n : ∀ k, Tracks (fun _ => ((k : ℕ) : ℝ)) s (k : Dual ℝ) := fun k => Tracks.nat k
  have ha := ((n 1).div (n 2) (by norm_num)).mul (hmax.add hrp)
  have hpos' : 0 < ((1 : ℕ) : ℝ) / ((2 : ℕ) : ℝ) * (max (r1 s) (r2 s) + rp s) := by
    have : ((1 : ℕ) : ℝ) / ((2 : ℕ) : ℝ) = 1 / 2 := by norm_num
    rw [this]; positivity
  have hs := (hmu.div (ha.pow 3) (pow_pos hpos' 3).ne').sqrt (div_pos hm (pow_pos hpos' 3))
  have hx := (ht.div ((n 2).mul Tracks.pi) (by have := Real.pi_pos; positivity)).mul hs
  refine hx.floor ?_
  have := hj ⌊t s / (2 * Real.pi) * Real.sqrt (mu s / (1 / 2 * (max (r1 s) (r2 s) + rp s)) ^ 3)⌋
  simpa using this

namespace Spec.TracksM
variable {g h : ℝ → M3 ℝ} {k : ℝ → ℝ} {m n : M3 (Dual ℝ)} {c : Dual ℝ}
theorem add (hg : TracksM g s m) (hh : TracksM h s n) : TracksM (fun s => g s + h s) s (m + n) :=
  ⟨hg.r0.add hh.r0, hg.r1.add hh.r1, hg.r2.add hh.r2⟩
theorem sub (hg : TracksM g s m) (hh : TracksM h s n) : TracksM (fun s => g s - h s) s (m - n) :=
  ⟨hg.r0.sub hh.r0, hg.r1.sub hh.r1, hg.r2.sub hh.r2⟩
theorem neg (hg : TracksM g s m) : TracksM (fun s => -g s) s (-m) :=
  ⟨⟨hg.r0.x.neg, hg.r0.y.neg, hg.r0.z.neg⟩, ⟨hg.r1.x.neg, hg.r1.y.neg, hg.r1.z.neg⟩,
    ⟨hg.r2.x.neg, hg.r2.y.neg, hg.r2.z.neg⟩⟩
theorem smul (hc : Tracks k s c) (hg : TracksM g s m) : TracksM (fun s => k s • g s) s (c • m) :=
  ⟨TracksV.smul hc hg.r0, TracksV.smul hc hg.r1, TracksV.smul hc hg.r2⟩
theorem div (hg : TracksM g s m) (hc : Tracks k s c) (h0 : k s ≠ 0) : TracksM (fun s => g s / k s) s (m / c) :=
  ⟨hg.r0.div hc h0, hg.r1.div hc h0, hg.r2.div hc h0⟩
theorem eye : TracksM (fun _ => (M3.eye : M3 ℝ)) s (M3.eye : M3 (Dual ℝ)) :=
  ⟨⟨Tracks.nat 1, Tracks.nat 0, Tracks.nat 0⟩, ⟨Tracks.nat 0, Tracks.nat 1, Tracks.nat 0⟩,
    ⟨Tracks.nat 0, Tracks.nat 0, Tracks.nat 1⟩⟩
theorem outer {a b : ℝ → V3 ℝ} {a' b' : V3 (Dual ℝ)} (ha : TracksV a s a') (hb : TracksV b s b') :
    TracksM (fun s => M3.outer (a s) (b s)) s (M3.outer a' b') :=
  ⟨⟨ha.x.mul hb.x, ha.x.mul hb.y, ha.x.mul hb.z⟩, ⟨ha.y.mul hb.x, ha.y.mul hb.y, ha.y.mul hb.z⟩,
    ⟨ha.z.mul hb.x, ha.z.mul hb.y, ha.z.mul hb.z⟩⟩
end Spec.TracksM

section stm
variable {F G Ft Gt C : ℝ → ℝ} {F' G' Ft' Gt' C' : Dual ℝ} {r0v v0v : ℝ → V3 ℝ} {r0v' v0v' : V3 (Dual ℝ)}

/-- C62: the blocks of the state transition matrix. -/
theorem C62_blocks (hr : TracksV rv s rv') (hv : TracksV vv s vv') (hr0 : TracksV r0v s r0v') (hv0 : TracksV v0v s v0v')
    (hF : Tracks F s F') (hG : Tracks G s G') (hFt : Tracks Ft s Ft') (hGt : Tracks Gt s Gt') (hC : Tracks C s C')
    (hmu : Tracks mu s mu') (h1 : rv s ≠ ⟨0, 0, 0⟩) (h2 : r0v s ≠ ⟨0, 0, 0⟩) (h3 : mu s ≠ 0) :
    TracksM (fun s => prpr0 (rv s) (vv s) (r0v s) (v0v s) (F s) (C s) (mu s)) s (prpr0 rv' vv' r0v' v0v' F' C' mu') ∧
    TracksM (fun s => prpv0 (rv s) (vv s) (r0v s) (v0v s) (F s) (G s) (C s) (mu s)) s
      (prpv0 rv' vv' r0v' v0v' F' G' C' mu') ∧
    TracksM (fun s => pvpr0 (rv s) (vv s) (r0v s) (v0v s) (Ft s) (C s) (mu s)) s (pvpr0 rv' vv' r0v' v0v' Ft' C' mu') ∧
    TracksM (fun s => pvpv0 (rv s) (vv s) (r0v s) (v0v s) (F s) (Gt s) (C s) (mu s)) s
      (pvpv0 rv' vv' r0v' v0v' F' Gt' C' mu') := by
  have n1 := hr.norm h1
  have n2 := hr0.norm h2
  have q1 : V3.norm (rv s) ≠ 0 := ((V3.norm_pos _).2 h1).ne'
  have q2 : V3.norm (r0v s) ≠ 0 := ((V3.norm_pos _).2 h2).ne'
  have one := @Tracks.nat s 1
  have u1 := hr.div n1 q1
  have u2 := hr0.div n2 q2
  have dv := hv.sub hv0
  have I := @TracksM.eye s
  refine ⟨?_, ?_, ?_, ?_⟩
  · exact (((TracksM.smul (n1.div hmu h3) (.outer dv dv)).add (TracksM.smul (one.sub hF) (.outer (hr.div n2 q2) u2))).add
      (TracksM.smul (hC.div (n2.pow 2) (pow_ne_zero 2 q2)) (.outer hv u2))).add (TracksM.smul hF I)
  · exact ((TracksM.smul ((n2.div hmu h3).mul (one.sub hF)) ((TracksM.outer (hr.sub hr0) hv0).sub (.outer dv hr0))).add
      (TracksM.smul (hC.div hmu h3) (.outer hv hv0))).add (TracksM.smul hG I)
  · exact (((TracksM.outer dv (hr0.div (n2.pow 2) (pow_ne_zero 2 q2))).neg.sub
      (.outer (hr.div (n1.pow 2) (pow_ne_zero 2 q1)) dv)).add
      (TracksM.smul hFt ((I.sub (.outer u1 u1)).add
        ((((TracksM.outer hr hv).sub (.outer hv hr)).div hmu h3).mul (.outer u1 dv))))).sub
      (TracksM.smul (((hmu.div (n1.pow 2) (pow_ne_zero 2 q1)).mul hC).div (n2.pow 2) (pow_ne_zero 2 q2)) (.outer u1 u2))
  · exact (((TracksM.smul (n2.div hmu h3) (.outer dv dv)).add
      ((TracksM.smul n2 (TracksM.smul (one.sub hF) (.outer u1 (hr0.div n1 q1)))).div n1 q1)).sub
      (TracksM.smul (hC.div (n1.pow 2) (pow_ne_zero 2 q1)) (.outer u1 hv0))).add (TracksM.smul hGt I)

end stm

end
/-! ### Cases meeting the hypotheses -/

section cases

example : Tracks (fun a => orb_period a 1) 2 (orb_period ⟨2, some 1⟩ ⟨1, none⟩) :=
  C62_orb_period (Tracks.var 2) (Tracks.const 1) (by norm_num) (by norm_num)

example : Tracks (fun r => semimajor_axis r 1 1) 1 (semimajor_axis ⟨1, some 1⟩ ⟨1, none⟩ ⟨1, none⟩) :=
  C62_semimajor_axis (Tracks.var 1) (Tracks.const 1) (Tracks.const 1) (by norm_num) (by norm_num) (by norm_num)

/-- An inclined orbit, varied along the third axis. -/
example : Tracks (fun z => inclination ⟨1, 2, z⟩) 3 (inclination ⟨⟨1, none⟩, ⟨2, none⟩, ⟨3, some 1⟩⟩) :=
  C62_inclination (hv := fun z => ⟨1, 2, z⟩) ⟨Tracks.const 1, Tracks.const 2, Tracks.var 3⟩
    (by intro h; simpa using congrArg V3.x h) (Or.inl one_ne_zero)

example : Tracks (fun y => true_anomaly ⟨1, y, 0⟩ ⟨1 / 2, 0, 0⟩) 1
    (true_anomaly ⟨⟨1, none⟩, ⟨1, some 1⟩, ⟨0, none⟩⟩ ⟨⟨1 / 2, none⟩, ⟨0, none⟩, ⟨0, none⟩⟩) :=
  C62_true_anomaly (rv := fun y => ⟨1, y, 0⟩) (ev := fun _ => ⟨1 / 2, 0, 0⟩)
    ⟨Tracks.const 1, Tracks.var 1, Tracks.const 0⟩ ⟨Tracks.const _, Tracks.const 0, Tracks.const 0⟩
    (by intro h; have := congrArg V3.z h; norm_num [V3.cross] at this)

/-- A node on the negative first axis, where `arctan2` jumps and the wrap to `[0, 2 pi)` undoes the jump. -/
example : Tracks (fun y => right_ascension ⟨-1, y, 0⟩) 0 (right_ascension ⟨⟨-1, none⟩, ⟨0, some 1⟩, ⟨0, none⟩⟩) :=
  C62_right_ascension (nv := fun y => ⟨-1, y, 0⟩) ⟨Tracks.const (-1), Tracks.var 0, Tracks.const 0⟩
    (Or.inr (by norm_num))

example : TracksV (fun f => (coe2rv 1 (1 / 2) 1 1 1 f 1).1) 1
    (coe2rv ⟨1, none⟩ ⟨1 / 2, none⟩ ⟨1, none⟩ ⟨1, none⟩ ⟨1, none⟩ ⟨1, some 1⟩ ⟨1, none⟩ : V3 (Dual ℝ) × V3 (Dual ℝ)).1 :=
  (C62_coe2rv (Tracks.const 1) (Tracks.const (1 / 2)) (Tracks.const 1) (Tracks.const 1) (Tracks.const 1) (Tracks.var 1)
    (Tracks.const 1) (by norm_num) (by norm_num) (by have := Real.neg_one_le_cos 1; nlinarith)).1

/-- A circular orbit, varied in the universal variable. -/
example : TracksV (fun chi => (keplerStep chi 1 1 0 ⟨1, 0, 0⟩ ⟨0, 1, 0⟩ 1).1) 1
    (keplerStep (⟨1, some 1⟩ : Dual ℝ) ⟨1, none⟩ ⟨1, none⟩ ⟨0, none⟩ ⟨⟨1, none⟩, ⟨0, none⟩, ⟨0, none⟩⟩
      ⟨⟨0, none⟩, ⟨1, none⟩, ⟨0, none⟩⟩ ⟨1, none⟩).1 :=
  (C62_keplerStep (rv := fun _ => ⟨1, 0, 0⟩) (vv := fun _ => ⟨0, 1, 0⟩) (Tracks.var 1) (Tracks.const 1) (Tracks.const 1)
    (Tracks.const 0) ⟨Tracks.const 1, Tracks.const 0, Tracks.const 0⟩ ⟨Tracks.const 0, Tracks.const 1, Tracks.const 0⟩
    (Tracks.const 1) one_ne_zero one_pos one_ne_zero (by
      have h : dchi (1 : ℝ) 1 1 0 = 1 := by
        simp [dchi, equ_of_orb_uvi, ufunc0, ufunc1, ufunc2]
      rw [h]; norm_num)).1

/-- Half a revolution: the count of revolutions does not jump here. -/
example : Tracks (fun t => nmax_by_periapsis 1 1 (1 / 2) t 1) Real.pi
    (nmax_by_periapsis ⟨1, none⟩ ⟨1, none⟩ ⟨1 / 2, none⟩ ⟨Real.pi, some 1⟩ ⟨1, none⟩) := by
  refine C62_nmax (Tracks.const 1) (Tracks.const 1) (Tracks.const (1 / 2)) (Tracks.var _) (Tracks.const 1) (by norm_num)
    (by norm_num) (by norm_num) (fun k h => ?_)
  have h1 : max (1 : ℝ) (1 / 2) = 1 := max_eq_left (by norm_num)
  have h2 : Real.pi / (2 * Real.pi) = 1 / 2 := by have := Real.pi_pos; field_simp
  rw [h1, h2] at h
  norm_num at h
  have h3 : ((2 * k : ℤ) : ℝ) = 1 := by push_cast; linarith
  have h4 : 2 * k = 1 := by exact_mod_cast h3
  omega

end cases
end Adx
