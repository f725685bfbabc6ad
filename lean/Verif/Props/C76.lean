import Verif.SX
import Verif.Props.C64
import Verif.Lemmas.Param

/-! # C76: the sign of zero

The model run in `SX`, exact arithmetic with two zeros. First part: on its domain every function gives the value of the formula,
whatever the signs of the zeros among the arguments and the intermediate results; `kepler` and the solvers too. Second part: the
exception, the right ascension of equatorial orbits. -/

namespace Adx
open SX

/-- Descend through the operations; what is left are divisors and arguments of square roots. -/
macro "vals" : tactic =>
  `(tactic| repeat' (first
    | assumption | exact Val.cast _ | exact Val.pi | exact Val.onesLike _
    | refine Val.add ?_ ?_ | refine Val.sub ?_ ?_ | refine Val.mul ?_ ?_ | refine Val.neg ?_ | refine Val.pow ?_ _
    | refine Val.div ?_ ?_ ?_ | refine Val.sqrt ?_ ?_ | refine Val.cbrt ?_ | refine Val.sin ?_ | refine Val.cos ?_
    | refine Val.sinh ?_ | refine Val.cosh ?_ | refine Val.log ?_ ?_ | refine Val.abs ?_ | refine Val.maximum ?_ ?_
    | refine Val.floor ?_))

section Scalars
variable {a p e f mu P h r v r0 t s0 s U0 U1 U2 U4 U5 E M H N chi alpha r1 r2 rp : SX}
  {a' p' e' f' mu' P' h' r' v' r0' t' s0' s' U0' U1' U2' U4' U5' E' M' H' N' chi' alpha' r1' r2' rp' : ℝ}

/-! ### `_orb_integrals.py` -/

theorem C76_orb_integrals (ha : Val a a') (hp : Val p p') (he : Val e e') (hf : Val f f') (hmu : Val mu mu') (hP : Val P P')
    (hh : Val h h') (h0 : Val U0 U0') (h1 : Val U1 U1') (h2 : Val U2 U2') (hr0 : Val r0 r0') (hs : Val s0 s0') (hm : 0 < mu') :
    (0 ≤ a' → Val (orb_period a mu) (orb_period a' mu')) ∧ Val (a_from_period P mu) (a_from_period P' mu') ∧
    Val (semiparameter h mu) (semiparameter h' mu') ∧ (P' ≠ 0 → Val (mean_motion P) (mean_motion P')) ∧
    (1 + e' * Real.cos f' ≠ 0 → Val (equ_of_orbit p e f) (equ_of_orbit p' e' f')) ∧
    Val (equ_of_orb_uvi U0 U1 U2 r0 s0) (equ_of_orb_uvi U0' U1' U2' r0' s0') ∧
    (1 + e' ≠ 0 → Val (radius_periapsis p e) (radius_periapsis p' e')) ∧
    (1 - e' ≠ 0 → Val (radius_apoapsis p e) (radius_apoapsis p' e')) ∧ Val (semipara_from_ae a e) (semipara_from_ae a' e') ∧
    (1 - e' ^ 2 ≠ 0 → Val (a_from_pe p e) (a_from_pe p' e')) := by
  have hpi := Real.pi_pos
  refine ⟨fun h => ?_, ?_, ?_, fun h => ?_, fun h => ?_, ?_, fun h => ?_, fun h => ?_, ?_, fun h => ?_⟩
  · unfold orb_period; vals
    · exact hm.ne'
    · positivity
  · unfold a_from_period; vals
    · norm_num
    · exact pow_ne_zero 2 hpi.ne'
  · unfold semiparameter; vals
    exact hm.ne'
  · unfold mean_motion; vals
  · unfold equ_of_orbit; vals
    simpa using h
  · unfold equ_of_orb_uvi; vals
  · unfold radius_periapsis; vals
    simpa using h
  · unfold radius_apoapsis; vals
    simpa using h
  · unfold semipara_from_ae; vals
  · unfold a_from_pe; vals
    simpa using h

theorem C76_semimajor_axis (hr : Val r r') (hv : Val v v') (hmu : Val mu mu') (h1 : r' ≠ 0) (h2 : mu' ≠ 0)
    (h3 : 2 / r' - v' ^ 2 / mu' ≠ 0) : Val (semimajor_axis r v mu) (semimajor_axis r' v' mu') := by
  have h3 : ((2 : ℕ) : ℝ) / r' - v' ^ 2 / mu' ≠ 0 := by simpa using h3
  unfold semimajor_axis; vals

/-- `alpha = 1 / semimajor_axis` keeps its value on the parabolas: there `2 / r - v² / mu` is `+0`, never `-0`, and the two reciprocals
give `+inf` and `0`. -/
theorem C76_alpha (hr : Val r r') (hv : Val v v') (hmu : Val mu mu') (h1 : 0 < r') (h2 : 0 < mu') :
    Val (((1 : ℕ) : SX) / semimajor_axis r v mu) (((1 : ℕ) : ℝ) / semimajor_axis r' v' mu') := by
  by_cases h3 : 2 / r' - v' ^ 2 / mu' = 0
  · have e0 : Val (((2 : ℕ) : SX) / r - v ^ 2 / mu) 0 := by
      rw [← h3, ← Nat.cast_ofNat]
      exact ((Val.cast 2).div hr h1.ne').sub ((hv.pow 2).div hmu h2.ne')
    have hsb : (((2 : ℕ) : SX) / r).sb = false := sb_pos ((Val.cast 2).div hr h1.ne') (by positivity)
    have hd : (((2 : ℕ) : SX) / r - v ^ 2 / mu).sb = false := by
      rw [sb_zero e0]
      show (_ && _) = false
      rw [hsb]; rfl
    have hs : (semimajor_axis r v mu).val = XR.pinf := by
      show divVal ((1 : ℕ) : SX) (((2 : ℕ) : SX) / r - v ^ 2 / mu) = _
      unfold divVal
      rw [show (((1 : ℕ) : SX)).val = XR.fin ((1 : ℕ) : ℝ) from rfl, e0]
      show (if (0 : ℝ) = 0 then (if ((1 : ℕ) : ℝ) = 0 then _ else _) else _) = _
      rw [if_pos rfl, if_neg (by norm_num), hd, sb_pos (Val.cast 1) (by norm_num)]
      rfl
    have hz : ((1 : ℕ) : ℝ) / semimajor_axis r' v' mu' = 0 := by
      simp [semimajor_axis, h3]
    rw [hz]
    show divVal _ _ = _
    unfold divVal
    rw [hs]
    rfl
  · refine (Val.cast 1).div (C76_semimajor_axis hr hv hmu h1.ne' h2.ne' h3) ?_
    simpa [semimajor_axis] using h3

/-! ### `_uniformulas.py` -/

theorem C76_ufunc (hc : Val chi chi') (ha : Val alpha alpha') :
    Val (ufunc0 chi alpha) (ufunc0 chi' alpha') ∧ Val (ufunc1 chi alpha) (ufunc1 chi' alpha') ∧
    Val (ufunc2 chi alpha) (ufunc2 chi' alpha') ∧ Val (ufunc3 chi alpha) (ufunc3 chi' alpha') ∧
    Val (ufunc4 chi alpha) (ufunc4 chi' alpha') ∧ Val (ufunc5 chi alpha) (ufunc5 chi' alpha') := by
  have l1 := (Val.cast 0).lt ha
  have l2 := ha.lt (Val.cast 0)
  simp only [ufunc0, ufunc1, ufunc2, ufunc3, ufunc4, ufunc5, l1, l2, lt_real, Nat.cast_zero]
  rcases lt_trichotomy alpha' 0 with h | h | h
  · have hn : ¬ 0 < alpha' := not_lt.2 h.le
    have h1 : (0 : ℝ) ≤ -alpha' := by linarith
    have h2 : Real.sqrt (-alpha') ≠ 0 := (Real.sqrt_pos.2 (by linarith)).ne'
    have h3 : alpha' ≠ 0 := h.ne
    have h4 : -alpha' ≠ 0 := by linarith
    have h5 : ((2 : ℕ) : ℝ) * alpha' ^ 2 ≠ 0 := mul_ne_zero (by norm_num) (pow_ne_zero _ h3)
    have h6 : ((6 : ℕ) : ℝ) * alpha' ^ 3 ≠ 0 := mul_ne_zero (by norm_num) (pow_ne_zero _ h3)
    simp only [hn, h, decide_false, decide_true, if_true, if_false, Bool.false_eq_true]
    refine ⟨?_, ?_, ?_, ?_, ?_, ?_⟩ <;> vals
  · have hn : ¬ 0 < alpha' := not_lt.2 h.le
    have hn' : ¬ alpha' < 0 := not_lt.2 h.ge
    simp only [hn, hn', decide_false, if_false, Bool.false_eq_true]
    refine ⟨?_, ?_, ?_, ?_, ?_, ?_⟩ <;> vals <;> norm_num
  · have h1 : (0 : ℝ) ≤ alpha' := h.le
    have h2 : Real.sqrt alpha' ≠ 0 := (Real.sqrt_pos.2 h).ne'
    have h3 : alpha' ≠ 0 := h.ne'
    have h5 : ((2 : ℕ) : ℝ) * alpha' ^ 2 ≠ 0 := mul_ne_zero (by norm_num) (pow_ne_zero _ h3)
    have h6 : ((6 : ℕ) : ℝ) * alpha' ^ 3 ≠ 0 := mul_ne_zero (by norm_num) (pow_ne_zero _ h3)
    simp only [h, decide_true, if_true]
    refine ⟨?_, ?_, ?_, ?_, ?_, ?_⟩ <;> vals

/-! ### `_kep_equ.py`, `_lagrange.py` -/

theorem C76_kep_equ (hE : Val E E') (he : Val e e') (hM : Val M M') (ha : Val a a') (ht : Val t t') (hmu : Val mu mu') (hm : 0 < mu') :
    Val (kepler_equ_elps E e M) (kepler_equ_elps E' e' M') ∧ Val (dE E e) (dE E' e') ∧
    Val (kepler_equ_hypb E e M) (kepler_equ_hypb E' e' M') ∧ Val (dH E e) (dH E' e') ∧
    (0 < a' → Val (mean_anomaly_elps a t mu) (mean_anomaly_elps a' t' mu')) ∧
    (a' < 0 → Val (mean_anomaly_hypb a t mu) (mean_anomaly_hypb a' t' mu')) := by
  refine ⟨?_, ?_, ?_, ?_, fun h => ?_, fun h => ?_⟩
  · unfold kepler_equ_elps; vals
  · unfold dE; vals
  · unfold kepler_equ_hypb; vals
  · unfold dH; vals
  · unfold mean_anomaly_elps; vals
    · exact pow_ne_zero 3 h.ne'
    · positivity
  · have h3 : 0 < -a' ^ 3 := by have := Odd.pow_neg (by decide : Odd 3) h; linarith
    unfold mean_anomaly_hypb; vals
    · exact h3.ne'
    · positivity

theorem C76_kepler_equ_uni (hc : Val chi chi') (ha : Val alpha alpha') (hr : Val r0 r0') (hs : Val s0 s0') (hs1 : Val s s') (ht : Val t t')
    (hmu : Val mu mu') (hm : 0 ≤ mu') :
    Val (kepler_equ_uni chi alpha r0 s0 t mu) (kepler_equ_uni chi' alpha' r0' s0' t' mu') ∧
    Val (dchi chi alpha r0 s0) (dchi chi' alpha' r0' s0') ∧
    Val (generalized_anomaly alpha s s0 t mu) (generalized_anomaly alpha' s' s0' t' mu') := by
  obtain ⟨u0, u1, u2, u3, -, -⟩ := C76_ufunc hc ha
  refine ⟨?_, ?_, ?_⟩
  · unfold kepler_equ_uni; vals
  · unfold dchi equ_of_orb_uvi; vals
  · unfold generalized_anomaly; vals

theorem C76_lagrange (h1 : Val U1 U1') (h2 : Val U2 U2') (hs : Val s0 s0') (hr : Val r r') (hr0 : Val r0 r0') (hmu : Val mu mu')
    (n : r' ≠ 0) (n0 : r0' ≠ 0) (hm : 0 < mu') :
    Val (lagrange_F U2 r0) (lagrange_F U2' r0') ∧ Val (lagrange_G U1 U2 s0 r0 mu) (lagrange_G U1' U2' s0' r0' mu') ∧
    Val (lagrange_Ft U1 r r0 mu) (lagrange_Ft U1' r' r0' mu') ∧ Val (lagrange_Gt U2 r) (lagrange_Gt U2' r') := by
  have hq : Real.sqrt mu' ≠ 0 := (Real.sqrt_pos.2 hm).ne'
  have hm' := hm.le
  refine ⟨?_, ?_, ?_, ?_⟩
  · unfold lagrange_F; vals
  · unfold lagrange_G; vals
  · unfold lagrange_Ft; vals
  · unfold lagrange_Gt; vals

theorem C76_nmax (hrp : Val rp rp') (h1 : Val r1 r1') (h2 : Val r2 r2') (ht : Val t t') (hmu : Val mu mu') (hm : 0 < mu')
    (hr : 0 < max r1' r2' + rp') : Val (nmax_by_periapsis rp r1 r2 t mu) (nmax_by_periapsis rp' r1' r2' t' mu') := by
  have hpi := Real.pi_pos
  unfold nmax_by_periapsis; simp only []; vals
  · positivity
  · norm_num
  · show (((1 : ℕ) : ℝ) / ((2 : ℕ) : ℝ) * (max r1' r2' + rp')) ^ 3 ≠ 0
    positivity
  · show 0 ≤ mu' / (((1 : ℕ) : ℝ) / ((2 : ℕ) : ℝ) * (max r1' r2' + rp')) ^ 3
    positivity

/-! ### Solvers -/

theorem C76_solve_elps {tol : SX} {tol' : ℝ} (hM : Val M M') (he : Val e e') (ht : Val tol tol') (h1 : |e'| < 1) (n : ℕ) :
    RelO Val (solve_kepler_elps M e tol n) (solve_kepler_elps M' e' tol' n) := by
  have h0 : Val (elpsStart M e) (elpsStart M' e') := by
    unfold elpsStart; vals
    norm_num
  obtain ⟨_, _, h, -⟩ := C13_elps M e tol n
  refine relO_loop (fun s t h => ?_) (fun s t h => ?_) ⟨rfl, h0, h0.add ((Val.cast 2).mul ht)⟩ h
  · simp only [elpsCond, ht.lt (h.2.1.sub h.2.2).abs, h.1]
    rfl
  · have h2 := h.2.1
    have hd : Val (dE s.2.1 e) (dE t.2.1 e') := by unfold dE; vals
    have hne : dE t.2.1 e' ≠ 0 := by
      have hc : |e' * Real.cos t.2.1| < 1 := by
        rw [abs_mul]
        exact lt_of_le_of_lt (mul_le_of_le_one_right (abs_nonneg _) (Real.abs_cos_le_one _)) h1
      have := (abs_lt.1 hc).2
      show ((1 : ℕ) : ℝ) - e' * Real.cos t.2.1 ≠ 0
      rw [Nat.cast_one]
      linarith
    exact ⟨by simp [elpsBody, h.1], by simp only [elpsBody]; vals, h2⟩

theorem C76_solve_hypb {tol : SX} {tol' : ℝ} (hN : Val N N') (he : Val e e') (ht : Val tol tol') (h1 : 1 < e') (n : ℕ) :
    RelO Val (solve_kepler_hypb N e tol n) (solve_kepler_hypb N' e' tol' n) := by
  have hq : (0 : ℝ) ≤ (((2 : ℕ) : ℝ) * N' / e') ^ 2 + ((1 : ℕ) : ℝ) := by positivity
  have hpos : 0 < ((2 : ℕ) : ℝ) * N' / e' + Real.sqrt ((((2 : ℕ) : ℝ) * N' / e') ^ 2 + ((1 : ℕ) : ℝ)) := by
    have h2 : |((2 : ℕ) : ℝ) * N' / e'| < Real.sqrt ((((2 : ℕ) : ℝ) * N' / e') ^ 2 + ((1 : ℕ) : ℝ)) := by
      rw [← Real.sqrt_sq_eq_abs]
      exact Real.sqrt_lt_sqrt (sq_nonneg _) (by simp)
    have := neg_abs_le (((2 : ℕ) : ℝ) * N' / e')
    linarith
  have he0 : e' ≠ 0 := by linarith
  have h0 : Val (hypbStart N e) (hypbStart N' e') := by
    unfold hypbStart; vals
  obtain ⟨_, _, h, -⟩ := C13_hypb N e tol n
  have hk : ∀ {H : SX} {H' : ℝ}, Val H H' → Val (kepler_equ_hypb H e N) (kepler_equ_hypb H' e' N') := fun hH => by
    unfold kepler_equ_hypb; vals
  refine relO_loop (fun s t h => ?_) (fun s t h => ?_) ⟨rfl, h0, h0.add ((Val.cast 2).mul ht)⟩ h
  · simp only [hypbCond, ht.lt (hk h.2.1).abs, h.1]
    rfl
  · have h2 := h.2.1
    have hd : Val (dH s.2.1 e) (dH t.2.1 e') := by unfold dH; vals
    have hne : dH t.2.1 e' ≠ 0 := by
      show e' * Real.cosh t.2.1 - ((1 : ℕ) : ℝ) ≠ 0
      have := Real.one_le_cosh t.2.1
      rw [Nat.cast_one]
      nlinarith
    have h3 := hk h2
    exact ⟨by simp [hypbBody, h.1], by simp only [hypbBody]; vals, h2⟩

theorem C76_solve_uni {tol : SX} {tol' : ℝ} (ht : Val t t') (ha : Val alpha alpha') (hr : Val r0 r0') (hs : Val s0 s0') (hmu : Val mu mu')
    (htol : Val tol tol') (hm : 0 ≤ mu') (hd : ∀ chi, dchi chi alpha' r0' s0' ≠ 0) (n : ℕ) :
    RelO Val (solve_kepler_uni t alpha r0 s0 mu tol n) (solve_kepler_uni t' alpha' r0' s0' mu' tol' n) := by
  have h0 : Val (uniStart t alpha mu) (uniStart t' alpha' mu') := by unfold uniStart; vals
  obtain ⟨_, _, h, -⟩ := C13_uni t alpha r0 s0 mu tol n
  have hk := fun {c : SX} {c' : ℝ} (hc : Val c c') => C76_kepler_equ_uni hc ha hr hs hs ht hmu hm
  refine relO_loop (fun s t h => ?_) (fun s t h => ?_) ⟨rfl, h0, h0.add ((Val.cast 2).mul htol)⟩ h
  · simp only [uniCond, htol.lt (hk h.2.1).1.abs, h.1]
    rfl
  · have h2 := h.2.1
    exact ⟨by simp [uniBody, h.1], h2.sub ((hk h2).1.div (hk h2).2.1 (hd _)), h2⟩

end Scalars

/-! ### Vectors -/

section Vectors
variable {r v r0 v0 r1 v1 r2 u w : V3 SX} {r' v' r0' v0' r1' v1' r2' u' w' : V3 ℝ} {mu t rmin : SX} {mu' t' rmin' : ℝ}

theorem norm_ne {a : V3 ℝ} (h : a ≠ ⟨0, 0, 0⟩) : V3.norm a ≠ 0 := fun h0 => h ((V3.norm_eq_zero _).1 h0)

theorem C76_angular_momentum (hr : ValV r r') (hv : ValV v v') : ValV (angular_momentum r v) (angular_momentum r' v') := hr.cross hv

theorem C76_eccentricity_vector (hr : ValV r r') (hv : ValV v v') (hmu : Val mu mu') (n : r' ≠ ⟨0, 0, 0⟩) (hm : mu' ≠ 0) :
    ValV (eccentricity_vector r v mu) (eccentricity_vector r' v' mu') :=
  ((hv.cross (hr.cross hv)).div hmu hm).sub (hr.div hr.norm (norm_ne n))

theorem C76_sigma (hr : ValV r r') (hv : ValV v v') (hmu : Val mu mu') (hm : 0 < mu') :
    Val (sigma_fn r v mu) (sigma_fn r' v' mu') :=
  (hr.dot hv).div (hmu.sqrt hm.le) (Real.sqrt_pos.2 hm).ne'

theorem C76_node_vec (hu : ValV u u') : ValV (node_vec u) (node_vec u') :=
  ValV.cross (a := ⟨Nat.cast 0, Nat.cast 0, Nat.cast 1⟩) (x := ⟨Nat.cast 0, Nat.cast 0, Nat.cast 1⟩)
    ⟨Val.cast 0, Val.cast 0, Val.cast 1⟩ hu

theorem C76_path_checks (h1 : ValV r1 r1') (hv : ValV v1 v1') (h2 : ValV r2 r2') (hmu : Val mu mu') (hrm : Val rmin rmin')
    (n : r1' ≠ ⟨0, 0, 0⟩) (hm : 0 < mu') :
    is_short_way r1 v1 r2 = is_short_way r1' v1' r2' ∧ pass_perigee r1 v1 r2 mu = pass_perigee r1' v1' r2' mu' ∧
    rp_islower_rmin rmin r1 v1 mu = rp_islower_rmin rmin' r1' v1' mu' := by
  have he := C76_eccentricity_vector h1 hv hmu n hm.ne'
  have hs : is_short_way r1 v1 r2 = is_short_way r1' v1' r2' := (Val.cast 0).lt ((h1.cross hv).dot (h1.cross h2))
  refine ⟨hs, ?_, ?_⟩
  · have b1 := (Val.cast 0).lt ((h1.cross h2).dot (h1.cross he))
    have b2 := (Val.cast 0).lt ((h1.cross h2).dot (he.cross h2))
    simp only [pass_perigee, hs, b1, b2]
    rfl
  · have hp : Val (semiparameter (V3.norm (angular_momentum r1 v1)) mu) (semiparameter (V3.norm (angular_momentum r1' v1')) mu') :=
      ((h1.cross hv).norm.pow 2).div hmu hm.ne'
    have h0 : 0 ≤ V3.norm (eccentricity_vector r1' v1' mu') := Real.sqrt_nonneg _
    exact (hp.div ((Val.cast 1).add he.norm) (by positivity)).lt hrm

/-! ### `_orb_elements.py` -/

theorem wrapNeg_val {a : SX} {x : ℝ} (h : Val a x) : Val (wrapNeg a) (wrapNeg x) := by
  have h1 := h.lt (Val.cast 0)
  unfold wrapNeg
  rw [h1, lt_real]
  split
  · exact ((Val.cast 2).mul Val.pi).add h
  · exact h

theorem C76_inclination (hu : ValV u u') (n : u' ≠ ⟨0, 0, 0⟩) : Val (inclination u) (inclination u') := by
  have hn := norm_ne n
  have h1 : |u'.z / V3.norm u'| ≤ 1 := by
    rw [abs_div, abs_of_nonneg (show 0 ≤ V3.norm u' from Real.sqrt_nonneg _)]
    refine div_le_one_of_le₀ (Real.abs_le_sqrt ?_) (Real.sqrt_nonneg _)
    unfold V3.dot; nlinarith [sq_nonneg u'.x, sq_nonneg u'.y]
  exact (hu.z.div hu.norm hn).arccos (abs_le.1 h1).1 (abs_le.1 h1).2

/-- The right ascension off the equator. On the negative `x` axis `arctan2` gives `π` or `-π`, which the wrap brings to `π`. -/
theorem C76_right_ascension (hu : ValV u u') (n : u'.x ≠ 0 ∨ u'.y ≠ 0) : Val (right_ascension u) (right_ascension u') := by
  by_cases hc : u'.y ≠ 0 ∨ 0 < u'.x
  · exact wrapNeg_val (hu.y.arctan2 hu.x hc)
  · push Not at hc
    obtain ⟨hy, hx⟩ := hc
    have hx : u'.x < 0 := lt_of_le_of_ne hx (n.resolve_right (not_not.2 hy))
    have hv : right_ascension u' = Real.pi := by
      show wrapNeg (Complex.arg ⟨u'.x, u'.y⟩) = _
      rw [hy, show (⟨u'.x, 0⟩ : ℂ) = (u'.x : ℂ) from rfl, Complex.arg_ofReal_of_neg hx]
      unfold wrapNeg
      simp [lt_real, not_lt.2 Real.pi_pos.le]
    have h0 := hu.y
    rw [hy] at h0
    rw [hv]
    have hb := sb_neg hu.x hx
    have e1 : JFun.arctan2 u.y u.x = (⟨if u.y.sb then XR.fin (-Real.pi) else XR.fin Real.pi, u.y.sb⟩ : SX) := by
      show (⟨atan2Val u.y u.x, u.y.sb⟩ : SX) = _
      unfold atan2Val
      rw [h0, hu.x]
      simp only [if_true, hb]
    show Val (wrapNeg (JFun.arctan2 u.y u.x)) _
    rw [e1]
    cases u.y.sb
    · have := wrapNeg_val (a := (⟨XR.fin Real.pi, false⟩ : SX)) (x := Real.pi) rfl
      rw [show wrapNeg Real.pi = Real.pi by simp [wrapNeg, lt_real, not_lt.2 Real.pi_pos.le]] at this
      exact this
    · have := wrapNeg_val (a := (⟨XR.fin (-Real.pi), true⟩ : SX)) (x := -Real.pi) rfl
      rw [show wrapNeg (-Real.pi) = Real.pi by simp [wrapNeg, lt_real, Real.pi_pos]; ring] at this
      exact this

/-- Both angles between two vectors. -/
theorem angle_val (hu : ValV u u') (hw : ValV w w') (nu : u' ≠ ⟨0, 0, 0⟩) (nw : w' ≠ ⟨0, 0, 0⟩) :
    Val (wrapNeg (JFun.arctan2 (V3.norm (V3.cross u w)) (V3.dot u w)))
      (wrapNeg (JFun.arctan2 (V3.norm (V3.cross u' w')) (V3.dot u' w'))) := by
  have hn := (hu.cross hw).norm
  have hs := (hu.cross hw).norm_sb
  have hd := hu.dot hw
  refine wrapNeg_val ?_
  by_cases hc : V3.norm (V3.cross u' w') ≠ 0 ∨ 0 < V3.dot u' w'
  · exact hn.arctan2 hd hc
  · push Not at hc
    obtain ⟨h0, h1⟩ := hc
    have hne : V3.dot u' w' ≠ 0 := by
      intro hd0
      have hl := V3.norm_cross_sq u' w'
      rw [h0, hd0] at hl
      have : V3.norm u' ^ 2 * V3.norm w' ^ 2 ≠ 0 := mul_ne_zero (pow_ne_zero 2 (norm_ne nu)) (pow_ne_zero 2 (norm_ne nw))
      apply this; linarith
    have hlt := lt_of_le_of_ne h1 hne
    rw [h0] at hn ⊢
    exact hn.arctan2_cut (by rw [← sb_zero hn]; exact hs) hd hlt

theorem C76_rv2coe (hr : ValV r r') (hv : ValV v v') (hmu : Val mu mu') (hm : 0 < mu')
    (hh : angular_momentum r' v' ≠ ⟨0, 0, 0⟩) (hN : (angular_momentum r' v').x ≠ 0 ∨ (angular_momentum r' v').y ≠ 0)
    (he : eccentricity_vector r' v' mu' ≠ ⟨0, 0, 0⟩) : RelC Val (rv2coe r v mu) (rv2coe r' v' mu') := by
  have n := (ne_of_ang hh).1
  have h1 := C76_angular_momentum hr hv
  have h2 := C76_eccentricity_vector hr hv hmu n hm.ne'
  have h3 := C76_node_vec h1
  have hN' : (node_vec (angular_momentum r' v')).x ≠ 0 ∨ (node_vec (angular_momentum r' v')).y ≠ 0 := by
    rcases hN with h | h
    · right; simpa [node_vec, V3.cross] using h
    · left; simpa [node_vec, V3.cross] using h
  have hN0 : node_vec (angular_momentum r' v') ≠ ⟨0, 0, 0⟩ := by
    intro h; rw [h] at hN'; simp at hN'
  exact ⟨(h1.norm.pow 2).div hmu hm.ne', h2.norm, C76_inclination h1 hh, C76_right_ascension h3 hN', angle_val h3 h2 hN0 he,
    angle_val h2 hr he n⟩

/-- The shape elements need neither. -/
theorem C76_rv2coe_shape (hr : ValV r r') (hv : ValV v v') (hmu : Val mu mu') (hm : 0 < mu')
    (hh : angular_momentum r' v' ≠ ⟨0, 0, 0⟩) : Val (rv2coe r v mu).p (rv2coe r' v' mu').p ∧
    Val (rv2coe r v mu).e (rv2coe r' v' mu').e ∧ Val (rv2coe r v mu).incl (rv2coe r' v' mu').incl := by
  have h1 := C76_angular_momentum hr hv
  exact ⟨(h1.norm.pow 2).div hmu hm.ne', (C76_eccentricity_vector hr hv hmu (ne_of_ang hh).1 hm.ne').norm, C76_inclination h1 hh⟩

theorem C76_rotmats {x : SX} {x' : ℝ} (h : Val x x') : ValM (rotmat3dx x) (rotmat3dx x') ∧ ValM (rotmat3dy x) (rotmat3dy x') ∧
    ValM (rotmat3dz x) (rotmat3dz x') := by
  refine ⟨⟨⟨?_, ?_, ?_⟩, ⟨?_, ?_, ?_⟩, ⟨?_, ?_, ?_⟩⟩, ⟨⟨?_, ?_, ?_⟩, ⟨?_, ?_, ?_⟩, ⟨?_, ?_, ?_⟩⟩,
    ⟨⟨?_, ?_, ?_⟩, ⟨?_, ?_, ?_⟩, ⟨?_, ?_, ?_⟩⟩⟩ <;> simp only [rotmat3dx, rotmat3dy, rotmat3dz] <;> vals

theorem C76_coe2rv {p e i O w f : SX} {p' e' i' O' w' f' : ℝ} (hp : Val p p') (he : Val e e') (hi : Val i i') (hO : Val O O')
    (hw : Val w w') (hf : Val f f') (hmu : Val mu mu') (h1 : 0 < p') (h2 : 0 ≤ mu') (h3 : 1 + e' * Real.cos f' ≠ 0) :
    ValV (coe2rv p e i O w f mu).1 (coe2rv p' e' i' O' w' f' mu').1 ∧
    ValV (coe2rv p e i O w f mu).2 (coe2rv p' e' i' O' w' f' mu').2 := by
  have hM := ((C76_rotmats hO).2.2.mul (C76_rotmats hi).1).mul (C76_rotmats hw).2.2
  have h3 : ((1 : ℕ) : ℝ) + e' * Real.cos f' ≠ 0 := by simpa using h3
  have h4 := h1.ne'
  have h5 : 0 ≤ mu' / p' := div_nonneg h2 h1.le
  constructor
  · refine hM.mulVec (ValV.smul ?_ ⟨?_, ?_, ?_⟩) <;> vals
  · refine hM.mulVec (ValV.smul ?_ ⟨?_, ?_, ?_⟩) <;> vals

/-! ### `_state_trans.py` -/

theorem C76_dxdx0 (hr : ValV r r') (hv : ValV v v') (hr0 : ValV r0 r0') (hv0 : ValV v0 v0') (ht : Val t t') (hmu : Val mu mu')
    (nr : r' ≠ ⟨0, 0, 0⟩) (nr0 : r0' ≠ ⟨0, 0, 0⟩) (hm : 0 < mu') :
    ValM (dxdx0 r v r0 v0 t mu).rr (dxdx0 r' v' r0' v0' t' mu').rr ∧ ValM (dxdx0 r v r0 v0 t mu).rv (dxdx0 r' v' r0' v0' t' mu').rv ∧
    ValM (dxdx0 r v r0 v0 t mu).vr (dxdx0 r' v' r0' v0' t' mu').vr ∧ ValM (dxdx0 r v r0 v0 t mu).vv (dxdx0 r' v' r0' v0' t' mu').vv := by
  have n0 := hr0.norm
  have n1 := hr.norm
  have z0 := norm_ne nr0
  have z1 := norm_ne nr
  have p0 : 0 < V3.norm r0' := lt_of_le_of_ne (Real.sqrt_nonneg _) (Ne.symm z0)
  have hq : Real.sqrt mu' ≠ 0 := (Real.sqrt_pos.2 hm).ne'
  have hmu0 := hm.ne'
  have hal := C76_alpha n0 hv0.norm hmu p0 hm
  have hs := C76_sigma hr hv hmu hm
  have hs0 := C76_sigma hr0 hv0 hmu hm
  have hchi := (C76_kepler_equ_uni (Val.cast 0) hal n0 hs0 hs ht hmu hm.le).2.2
  obtain ⟨-, u1, u2, -, u4, u5⟩ := C76_ufunc hchi hal
  obtain ⟨hF, hG, hFt, hGt⟩ := C76_lagrange u1 u2 hs0 n1 n0 hmu z1 z0 hm
  have hC := (((((Val.cast 3).mul u5).sub (hchi.mul u4)).sub (((hmu.sqrt hm.le).mul ht).mul u2))).div (hmu.sqrt hm.le) hq
  have dv := hv.sub hv0
  have hI := ValM.eye
  have i1 := (Val.cast 1).sub hF
  have q0 := pow_ne_zero 2 z0
  have q1 := pow_ne_zero 2 z1
  refine ⟨?_, ?_, ?_, ?_⟩
  · exact (((ValM.smul (n1.div hmu hmu0) (ValM.outer dv dv)).add
      (ValM.smul i1 (ValM.outer (hr.div n0 z0) (hr0.div n0 z0)))).add
      (ValM.smul (hC.div (n0.pow 2) q0) (ValM.outer hv (hr0.div n0 z0)))).add (ValM.smul hF hI)
  · exact ((ValM.smul ((n0.div hmu hmu0).mul i1) ((ValM.outer (hr.sub hr0) hv0).sub (ValM.outer dv hr0))).add
      (ValM.smul (hC.div hmu hmu0) (ValM.outer hv hv0))).add (ValM.smul hG hI)
  · exact (((ValM.neg (ValM.outer dv (hr0.div (n0.pow 2) q0))).sub (ValM.outer (hr.div (n1.pow 2) q1) dv)).add
      (ValM.smul hFt ((hI.sub (ValM.outer (hr.div n1 z1) (hr.div n1 z1))).add
        (ValM.mul (ValM.div ((ValM.outer hr hv).sub (ValM.outer hv hr)) hmu hmu0) (ValM.outer (hr.div n1 z1) dv))))).sub
      (ValM.smul ((((hmu.div (n1.pow 2) q1).mul hC).div (n0.pow 2) q0)) (ValM.outer (hr.div n1 z1) (hr0.div n0 z0)))
  · exact (((ValM.smul (n0.div hmu hmu0) (ValM.outer dv dv)).add
      (ValM.div (ValM.smul n0 (ValM.smul i1 (ValM.outer (hr.div n1 z1) (hr0.div n1 z1)))) n1 z1)).sub
      (ValM.smul (hC.div (n1.pow 2) q1) (ValM.outer (hr.div n1 z1) hv0))).add (ValM.smul hGt hI)

/-! ### `kepler` -/

theorem C76_keplerRow (hr : ValV r r') (hv : ValV v v') (hmu : Val mu mu') (ht : Val t t') (hm : 0 < mu')
    (hh : angular_momentum r' v' ≠ ⟨0, 0, 0⟩) :
    ValV (keplerRow r v mu t).1 (keplerRow r' v' mu' t').1 ∧ ValV (keplerRow r v mu t).2 (keplerRow r' v' mu' t').2 := by
  have z0 := norm_ne (ne_of_ang hh).1
  have p0 : 0 < V3.norm r' := lt_of_le_of_ne (Real.sqrt_nonneg _) (Ne.symm z0)
  have n0 := hr.norm
  have hal := C76_alpha n0 hv.norm hmu p0 hm
  rw [alphaOf_cast] at hal
  have hs := C76_sigma hr hv hmu hm
  have hchi : Val (chiOf t (((1 : ℕ) : SX) / semimajor_axis (V3.norm r) (V3.norm v) mu) (V3.norm r) (sigma_fn r v mu) mu)
      (chiOf t' (alphaOf r' v' mu') (V3.norm r') (sigma_fn r' v' mu') mu') := by
    have h := C76_solve_uni ht hal n0 hs hmu (tol := defaultTol) (tol' := defaultTol)
      ((Val.cast 1).div (Val.cast 1000000) (by norm_num)) hm.le (dchi_ne r' v' hm hh) 50
    rw [show solve_kepler_uni t _ (V3.norm r) (sigma_fn r v mu) mu defaultTol 50 = _ from solve_eq_chiOf _ _ _ _ _,
      show solve_kepler_uni t' _ (V3.norm r') (sigma_fn r' v' mu') mu' defaultTol 50 = _ from solve_eq_chiOf _ _ _ _ _] at h
    exact h
  obtain ⟨u0, u1, u2, -⟩ := C76_ufunc hchi hal
  have hd := dchi_ne r' v' hm hh (chiOf t' (alphaOf r' v' mu') (V3.norm r') (sigma_fn r' v' mu') mu')
  have hrr := (C76_kepler_equ_uni hchi hal n0 hs hs ht hmu hm.le).2.1
  obtain ⟨hF, hG, hFt, hGt⟩ := C76_lagrange u1 u2 hs hrr n0 hmu hd z0 hm
  simp only [keplerRow, item_real, alphaOf_cast]
  exact ⟨(ValV.smul hF hr).add (ValV.smul hG hv), (ValV.smul hFt hr).add (ValV.smul hGt hv)⟩

/-- `kepler`: every row, on every orbit of positive angular momentum. -/
theorem C76_kepler {ts : List SX} {ts' : List ℝ} (hr : ValV r r') (hv : ValV v v') (hmu : Val mu mu') (ht : List.Forall₂ Val ts ts')
    (hm : 0 < mu') (hh : angular_momentum r' v' ≠ ⟨0, 0, 0⟩) :
    RelO (fun a b => List.Forall₂ ValV a.1 b.1 ∧ List.Forall₂ ValV a.2 b.2) (kepler ts r v mu) (kepler ts' r' v' mu') := by
  rw [kepler_eq_map, kepler_eq_map]
  constructor <;> simp only [List.forall₂_map_left_iff, List.forall₂_map_right_iff]
  · exact ht.imp fun _ _ h => (C76_keplerRow hr hv hmu h hm hh).1
  · exact ht.imp fun _ _ h => (C76_keplerRow hr hv hmu h hm hh).2

end Vectors

/-! ### Gravity and events -/

section Gravity
variable {t : SX} {t' : ℝ} {x : State SX} {x' : State ℝ} {args : Args SX} {args' : Args ℝ}

theorem C76_gravity (hx : ValV x.pos x'.pos) (hargs : ∀ k, RelO Val (args k) (args' k)) (n : x'.pos ≠ ⟨0, 0, 0⟩) :
    RelE ValV (point_mass_grav t x args) (point_mass_grav t' x' args') ∧ RelE ValV (j2_acc t x args) (j2_acc t' x' args') ∧
    RelE ValV (j3_acc t x args) (j3_acc t' x' args') ∧ RelE ValV (j4_acc t x args) (j4_acc t' x' args') ∧
    RelE Val (radius_islow t x args) (radius_islow t' x' args') := by
  have h1 := RelO.get hargs "mu"
  have h2 := RelO.get hargs "J2"
  have h3 := RelO.get hargs "J3"
  have h4 := RelO.get hargs "J4"
  have h5 := RelO.get hargs "R_eq"
  have h6 := RelO.get hargs "rmin"
  have hn := hx.norm
  have hx1 := hx.x
  have hx2 := hx.y
  have hx3 := hx.z
  have z0 := norm_ne n
  have z2 := pow_ne_zero 2 z0
  have z3 := pow_ne_zero 3 z0
  have z5 := pow_ne_zero 5 z0
  have z7 := pow_ne_zero 7 z0
  refine ⟨?_, ?_, ?_, ?_, ?_⟩
  · unfold point_mass_grav
    clear h2 h3 h4 h5 h6
    revert h1
    rcases args.get "mu" with e | mu <;> rcases args'.get "mu" with e' | mu' <;> intro h1 <;> try exact h1.elim
    · exact h1
    have h1 : Val mu mu' := h1
    refine ⟨?_, ?_, ?_⟩ <;> vals
  · unfold j2_acc
    clear h3 h4 h6
    revert h1 h2 h5
    rcases args.get "mu" with e | mu <;> rcases args'.get "mu" with e' | mu' <;> intro h1 <;> try exact h1.elim
    · exact fun _ _ => h1
    rcases args.get "J2" with e | J <;> rcases args'.get "J2" with e' | J' <;> intro h2 <;> try exact h2.elim
    · exact fun _ => h2
    rcases args.get "R_eq" with e | Q <;> rcases args'.get "R_eq" with e' | Q' <;> intro h3 <;> try exact h3.elim
    · exact h3
    have h1 : Val mu mu' := h1
    have h2 : Val J J' := h2
    have h3 : Val Q Q' := h3
    refine ⟨?_, ?_, ?_⟩ <;> vals <;> norm_num
  · unfold j3_acc
    clear h2 h4 h6
    revert h1 h3 h5
    rcases args.get "mu" with e | mu <;> rcases args'.get "mu" with e' | mu' <;> intro h1 <;> try exact h1.elim
    · exact fun _ _ => h1
    rcases args.get "J3" with e | J <;> rcases args'.get "J3" with e' | J' <;> intro h2 <;> try exact h2.elim
    · exact fun _ => h2
    rcases args.get "R_eq" with e | Q <;> rcases args'.get "R_eq" with e' | Q' <;> intro h3 <;> try exact h3.elim
    · exact h3
    have h1 : Val mu mu' := h1
    have h2 : Val J J' := h2
    have h3 : Val Q Q' := h3
    refine ⟨?_, ?_, ?_⟩ <;> vals <;> norm_num
  · unfold j4_acc
    clear h2 h3 h6
    revert h1 h4 h5
    rcases args.get "mu" with e | mu <;> rcases args'.get "mu" with e' | mu' <;> intro h1 <;> try exact h1.elim
    · exact fun _ _ => h1
    rcases args.get "J4" with e | J <;> rcases args'.get "J4" with e' | J' <;> intro h2 <;> try exact h2.elim
    · exact fun _ => h2
    rcases args.get "R_eq" with e | Q <;> rcases args'.get "R_eq" with e' | Q' <;> intro h3 <;> try exact h3.elim
    · exact h3
    have h1 : Val mu mu' := h1
    have h2 : Val J J' := h2
    have h3 : Val Q Q' := h3
    refine ⟨?_, ?_, ?_⟩ <;> vals <;> norm_num
  · unfold radius_islow
    clear h1 h2 h3 h4 h5
    revert h6
    rcases args.get "rmin" with e | mu <;> rcases args'.get "rmin" with e' | mu' <;> intro h1 <;> try exact h1.elim
    · exact h1
    · have h1 : Val mu mu' := h1
      exact hn.sub h1
end Gravity

/-! ### The exception: equatorial orbits -/

/-- `arctan2` of a zero, wrapped: the sign bit of the second argument decides. -/
theorem wrap_atan2_zero {a b : SX} {x : ℝ} (ha : Val a 0) (hb : Val b x) :
    Val (wrapNeg (JFun.arctan2 a b)) (if b.sb then Real.pi else 0) := by
  have w1 : wrapNeg Real.pi = Real.pi := by simp [wrapNeg, lt_real, not_lt.2 Real.pi_pos.le]
  have w2 : wrapNeg (-Real.pi) = Real.pi := by simp [wrapNeg, lt_real, Real.pi_pos]; ring
  have w3 : wrapNeg (0 : ℝ) = 0 := by simp [wrapNeg, lt_real]
  have e1 : (JFun.arctan2 a b).val
      = XR.fin (if b.sb then (if a.sb then -Real.pi else Real.pi) else 0) := by
    show atan2Val a b = _
    unfold atan2Val
    rw [ha, hb]
    simp only [if_true]
    split_ifs <;> rfl
  have := wrapNeg_val e1
  cases hbs : b.sb <;> cases has : a.sb <;> simp only [hbs, has, if_true, if_false, Bool.false_eq_true, w1, w2, w3] at this ⊢ <;> exact this

theorem zmul {a b : SX} {x : ℝ} (ha : Val a 0) (hb : Val b x) : Val (a * b) 0 ∧ (a * b).sb = xor a.sb b.sb := by
  have h : Val (a * b) 0 := by simpa using ha.mul hb
  exact ⟨h, sb_zero h⟩

theorem zmul' {a b : SX} {x : ℝ} (ha : Val a x) (hb : Val b 0) : Val (a * b) 0 ∧ (a * b).sb = xor a.sb b.sb := by
  have h : Val (a * b) 0 := by simpa using ha.mul hb
  exact ⟨h, sb_zero h⟩

theorem zsub {a b : SX} (ha : Val a 0) (hb : Val b 0) : Val (a - b) 0 ∧ (a - b).sb = (a.sb && !b.sb) := by
  have h : Val (a - b) 0 := by simpa using ha.sub hb
  exact ⟨h, sb_zero h⟩

theorem zadd {a b : SX} (ha : Val a 0) (hb : Val b 0) : Val (a + b) 0 ∧ (a + b).sb = (a.sb && b.sb) := by
  have h : Val (a + b) 0 := by simpa using ha.add hb
  exact ⟨h, sb_zero h⟩

theorem sb_cast (n : ℕ) : ((n : ℕ) : SX).sb = false := by
  rcases Nat.eq_zero_or_pos n with h | h
  · subst h; rw [sb_zero Val.lit0]; rfl
  · exact sb_pos (Val.cast n) (by exact_mod_cast h)

/-- The node vector of an equatorial orbit: zeros, the first one negative exactly if the orbit is retrograde and `h_y` is `+0`. -/
theorem node_equatorial {h : V3 SX} {hz : ℝ} (hx : Val h.x 0) (hy : Val h.y 0) (hz' : Val h.z hz) :
    Val (node_vec h).x 0 ∧ Val (node_vec h).y 0 ∧ (node_vec h).x.sb = (h.z.sb && !h.y.sb) := by
  have a := zmul Val.lit0 hz'
  have b := zmul' (Val.cast 1) hy
  have c := zsub a.1 b.1
  have d := zsub (zmul' (Val.cast 1) hx).1 a.1
  refine ⟨c.1, d.1, c.2.trans ?_⟩
  rw [a.2, b.2, sb_cast, sb_cast]
  simp

/-- Direct equatorial states: the right ascension is `0` whatever the signs of the zeros. -/
theorem C76_direct {h : V3 SX} {hz : ℝ} (hx : Val h.x 0) (hy : Val h.y 0) (hz' : Val h.z hz) (h0 : 0 < hz) :
    Val (right_ascension (node_vec h)) 0 := by
  obtain ⟨h1, h2, h3⟩ := node_equatorial hx hy hz'
  have := wrap_atan2_zero h2 h1
  rw [h3, sb_pos hz' h0] at this
  exact this

/-- Retrograde equatorial states: `π`, or `0` if the zero `h_y` is negative. -/
theorem C76_retrograde {h : V3 SX} {hz : ℝ} (hx : Val h.x 0) (hy : Val h.y 0) (hz' : Val h.z hz) (h0 : hz < 0) :
    Val (right_ascension (node_vec h)) (if h.y.sb then 0 else Real.pi) := by
  obtain ⟨h1, h2, h3⟩ := node_equatorial hx hy hz'
  have := wrap_atan2_zero h2 h1
  rw [h3, sb_neg hz' h0] at this
  cases hb : h.y.sb <;> rw [hb] at this <;> exact this

/-- In terms of the state: with `z` and `v_z` both `+0`, a retrograde orbit has right ascension `0` where `x` is positive and `v_x`
negative, and `π` everywhere else. -/
theorem C76_retrograde_state {r v : V3 SX} {x y vx vy : ℝ} (hr : ValV r ⟨x, y, 0⟩) (hv : ValV v ⟨vx, vy, 0⟩)
    (hz : r.z.sb = false) (hvz : v.z.sb = false) (h0 : x * vy - y * vx < 0) (mu : SX) :
    Val (rv2coe r v mu).raan (if v.x.sb && !r.x.sb then 0 else Real.pi) := by
  have hh := C76_angular_momentum hr hv
  have hx : Val (angular_momentum r v).x 0 := by simpa [angular_momentum, V3.cross] using hh.x
  have hy : Val (angular_momentum r v).y 0 := by simpa [angular_momentum, V3.cross] using hh.y
  have a := zmul (show Val r.z 0 from hr.z) hv.x
  have b := zmul' hr.x (show Val v.z 0 from hv.z)
  have hs : (angular_momentum r v).y.sb = (v.x.sb && !r.x.sb) := by
    refine (zsub a.1 b.1).2.trans ?_
    rw [a.2, b.2, hz, hvz]
    simp
  have := C76_retrograde hx hy (hh.z) h0
  rw [hs] at this
  exact this

/-- Over the reals the model gives `0` for all of them. -/
theorem C76_retrograde_real {r v : V3 ℝ} (h1 : r.z = 0) (h2 : v.z = 0) (mu : ℝ) : (rv2coe r v mu).raan = 0 := by
  show wrapNeg (Complex.arg ⟨_, _⟩) = 0
  have : (⟨(node_vec (angular_momentum r v)).x, (node_vec (angular_momentum r v)).y⟩ : ℂ) = 0 := by
    apply Complex.ext <;> simp [node_vec, angular_momentum, V3.cross, h1, h2]
  rw [this, Complex.arg_zero]
  simp [wrapNeg, lt_real]

theorem pos_val (x : ℝ) : Val (pos x) x := rfl
theorem pos_sb {x : ℝ} (h : 0 ≤ x) : (pos x).sb = false := by
  rcases h.eq_or_lt with h | h
  · subst h; exact sb_zero (pos_val 0)
  · exact sb_pos rfl h

/-- Two states of one orbit (same angular momentum and eccentricity vector), every zero `+0`, with right ascensions `0` and `π`. -/
theorem C76_raan_jumps : ∃ r v s w : V3 ℝ, angular_momentum r v = angular_momentum s w ∧
    eccentricity_vector r v 1 = eccentricity_vector s w 1 ∧
    Val (rv2coe (⟨pos r.x, pos r.y, pos r.z⟩ : V3 SX) ⟨pos v.x, pos v.y, pos v.z⟩ (pos 1)).raan 0 ∧
    Val (rv2coe (⟨pos s.x, pos s.y, pos s.z⟩ : V3 SX) ⟨pos w.x, pos w.y, pos w.z⟩ (pos 1)).raan Real.pi := by
  have n1 : V3.norm (⟨3 / 5, -(4 / 5), 0⟩ : V3 ℝ) = 1 := by
    show Real.sqrt _ = 1
    rw [Real.sqrt_eq_one]
    simp only [V3.dot]; norm_num
  have n2 : V3.norm (⟨-(3 / 5), -(4 / 5), 0⟩ : V3 ℝ) = 1 := by
    show Real.sqrt _ = 1
    rw [Real.sqrt_eq_one]
    simp only [V3.dot]; norm_num
  refine ⟨⟨3 / 5, -(4 / 5), 0⟩, ⟨-(4 / 5), -(3 / 5), 0⟩, ⟨-(3 / 5), -(4 / 5), 0⟩, ⟨-(4 / 5), 3 / 5, 0⟩, ?_, ?_, ?_, ?_⟩
  · simp only [angular_momentum, V3.cross]
    norm_num
  · simp only [eccentricity_vector, n1, n2, angular_momentum]
    ext <;> simp [V3.cross]
    norm_num
  · have := C76_retrograde_state (r := ⟨pos (3 / 5), pos (-(4 / 5)), pos 0⟩) (v := ⟨pos (-(4 / 5)), pos (-(3 / 5)), pos 0⟩)
      ⟨rfl, rfl, rfl⟩ ⟨rfl, rfl, rfl⟩ (pos_sb le_rfl) (pos_sb le_rfl) (by norm_num) (pos 1)
    rw [show (pos (-(4 / 5))).sb = true from sb_neg rfl (by norm_num), pos_sb (by norm_num)] at this
    simpa using this
  · have := C76_retrograde_state (r := ⟨pos (-(3 / 5)), pos (-(4 / 5)), pos 0⟩) (v := ⟨pos (-(4 / 5)), pos (3 / 5), pos 0⟩)
      ⟨rfl, rfl, rfl⟩ ⟨rfl, rfl, rfl⟩ (pos_sb le_rfl) (pos_sb le_rfl) (by norm_num) (pos 1)
    rw [show (pos (-(4 / 5))).sb = true from sb_neg rfl (by norm_num),
      show (pos (-(3 / 5))).sb = true from sb_neg rfl (by norm_num)] at this
    simpa using this

/-- At the periapsis `(q, 0, 0)` of a retrograde equatorial orbit, every zero `+0`: the elements are `Ω = π`, `ω = 0`, `f = 0`, `i = π`,
and `coe2rv` returns the opposite point `(-q, ..)`. Over the reals, where the model takes `arctan2(0, -0)` for `0`, the position is
recovered. -/
theorem C76_roundtrip_refuted {q w mu : ℝ} (hq : 0 < q) (hw : 0 < w) (hmu : 0 < mu) (hp : mu < q * w ^ 2) :
    let c := rv2coe (⟨pos q, pos 0, pos 0⟩ : V3 SX) ⟨pos 0, pos (-w), pos 0⟩ (pos mu)
    let d := rv2coe (⟨q, 0, 0⟩ : V3 ℝ) ⟨0, -w, 0⟩ mu
    Val (coe2rv c.p c.e c.incl c.raan c.argp c.true_anom (pos mu)).1.x (-q) ∧
    (coe2rv d.p d.e d.incl d.raan d.argp d.true_anom mu).1.x = q := by
  intro c d
  have hr : ValV (⟨pos q, pos 0, pos 0⟩ : V3 SX) ⟨q, 0, 0⟩ := ⟨rfl, rfl, rfl⟩
  have hv : ValV (⟨pos 0, pos (-w), pos 0⟩ : V3 SX) ⟨0, -w, 0⟩ := ⟨rfl, rfl, rfl⟩
  have hm : Val (pos mu) mu := rfl
  have hang : angular_momentum (⟨q, 0, 0⟩ : V3 ℝ) ⟨0, -w, 0⟩ = ⟨0, 0, -(q * w)⟩ := by
    simp [angular_momentum, V3.cross]
  have hne : angular_momentum (⟨q, 0, 0⟩ : V3 ℝ) ⟨0, -w, 0⟩ ≠ ⟨0, 0, 0⟩ := by
    rw [hang]; intro h; injection h with _ _ h; have := mul_pos hq hw; linarith
  have hnorm : V3.norm (⟨q, 0, 0⟩ : V3 ℝ) = q := by
    show Real.sqrt _ = q
    simp only [V3.dot]; rw [show q * q + 0 * 0 + 0 * 0 = q ^ 2 by ring]; exact Real.sqrt_sq hq.le
  have hnh : V3.norm (⟨0, 0, -(q * w)⟩ : V3 ℝ) = q * w := by
    show Real.sqrt _ = _
    simp only [V3.dot]; rw [show 0 * 0 + 0 * 0 + -(q * w) * -(q * w) = (q * w) ^ 2 by ring]; exact Real.sqrt_sq (by positivity)
  set k : ℝ := q * w ^ 2 / mu - 1 with hk
  have hk0 : 0 < k := by rw [hk, sub_pos, one_lt_div hmu]; exact hp
  have hecc : eccentricity_vector (⟨q, 0, 0⟩ : V3 ℝ) ⟨0, -w, 0⟩ mu = ⟨k, 0, 0⟩ := by
    simp only [eccentricity_vector, hang, hnorm]
    ext <;> simp [V3.cross, hk]
    field_simp
  have hnk : V3.norm (⟨k, 0, 0⟩ : V3 ℝ) = k := by
    show Real.sqrt _ = k
    simp only [V3.dot]; rw [show k * k + 0 * 0 + 0 * 0 = k ^ 2 by ring]; exact Real.sqrt_sq hk0.le
  obtain ⟨cp, ce, ci⟩ := C76_rv2coe_shape hr hv hm hmu hne
  have dp : d.p = (q * w) ^ 2 / mu := by
    show V3.norm (angular_momentum (⟨q, 0, 0⟩ : V3 ℝ) ⟨0, -w, 0⟩) ^ 2 / mu = _
    rw [hang, hnh]
  have de : d.e = k := by
    show V3.norm (eccentricity_vector (⟨q, 0, 0⟩ : V3 ℝ) ⟨0, -w, 0⟩ mu) = _
    rw [hecc, hnk]
  have di : d.incl = Real.pi := by
    show Real.arccos ((angular_momentum (⟨q, 0, 0⟩ : V3 ℝ) ⟨0, -w, 0⟩).z / V3.norm (angular_momentum (⟨q, 0, 0⟩ : V3 ℝ) ⟨0, -w, 0⟩)) = _
    rw [hang, hnh]
    show Real.arccos (-(q * w) / (q * w)) = _
    rw [neg_div, div_self (by positivity), Real.arccos_neg_one]
  have dO : d.raan = 0 := C76_retrograde_real rfl rfl mu
  have dw : d.argp = 0 := by
    show wrapNeg (Complex.arg ⟨_, _⟩) = 0
    have h1 : node_vec (angular_momentum (⟨q, 0, 0⟩ : V3 ℝ) ⟨0, -w, 0⟩) = ⟨0, 0, 0⟩ := by
      rw [hang]; simp [node_vec, V3.cross]
    rw [h1]
    have h2 : ∀ e : V3 ℝ, (⟨V3.dot ⟨0, 0, 0⟩ e, V3.norm (V3.cross ⟨0, 0, 0⟩ e)⟩ : ℂ) = 0 := by
      intro e
      apply Complex.ext
      · simp [V3.dot]
      · have : V3.norm (⟨0, 0, 0⟩ : V3 ℝ) = 0 := (V3.norm_eq_zero _).2 rfl
        simp [V3.cross, this]
    rw [h2, Complex.arg_zero]
    simp [wrapNeg, lt_real]
  have df : d.true_anom = 0 := by
    show wrapNeg (Complex.arg ⟨V3.dot (eccentricity_vector (⟨q, 0, 0⟩ : V3 ℝ) ⟨0, -w, 0⟩ mu) ⟨q, 0, 0⟩,
      V3.norm (V3.cross (eccentricity_vector (⟨q, 0, 0⟩ : V3 ℝ) ⟨0, -w, 0⟩ mu) ⟨q, 0, 0⟩)⟩) = 0
    rw [hecc]
    have h1 : V3.cross (⟨k, 0, 0⟩ : V3 ℝ) ⟨q, 0, 0⟩ = ⟨0, 0, 0⟩ := by simp [V3.cross]
    have h2 : V3.dot (⟨k, 0, 0⟩ : V3 ℝ) ⟨q, 0, 0⟩ = k * q := by simp [V3.dot]
    rw [h1, (V3.norm_eq_zero _).2 rfl, h2, show (⟨k * q, 0⟩ : ℂ) = ((k * q : ℝ) : ℂ) from rfl,
      Complex.arg_ofReal_of_nonneg (by positivity)]
    simp [wrapNeg, lt_real]
  -- the elements with signed zeros
  have cO : Val c.raan Real.pi := by
    have := C76_retrograde_state hr hv (pos_sb le_rfl) (pos_sb le_rfl) (by nlinarith [mul_pos hq hw]) (pos mu)
    simpa [pos_sb le_rfl] using this
  have cf : Val c.true_anom 0 := by
    rw [← df]
    exact angle_val (C76_eccentricity_vector hr hv hm (ne_of_ang hne).1 hmu.ne') hr
      (by rw [hecc]; intro h; injection h; linarith) (ne_of_ang hne).1
  have cw : Val c.argp 0 := by
    have hh := C76_angular_momentum hr hv
    rw [hang] at hh
    have he := C76_eccentricity_vector hr hv hm (ne_of_ang hne).1 hmu.ne'
    have hN := C76_node_vec hh
    rw [show node_vec (⟨0, 0, -(q * w)⟩ : V3 ℝ) = ⟨0, 0, 0⟩ by simp [node_vec, V3.cross]] at hN
    have hcross := (hN.cross he).norm
    rw [show V3.cross (⟨0, 0, 0⟩ : V3 ℝ) (eccentricity_vector (⟨q, 0, 0⟩ : V3 ℝ) ⟨0, -w, 0⟩ mu) = ⟨0, 0, 0⟩ by simp [V3.cross],
      (V3.norm_eq_zero _).2 rfl] at hcross
    have key := wrap_atan2_zero hcross (hN.dot he)
    rw [hecc] at he
    set N := node_vec (angular_momentum (⟨pos q, pos 0, pos 0⟩ : V3 SX) ⟨pos 0, pos (-w), pos 0⟩) with hNd
    set ev := eccentricity_vector (⟨pos q, pos 0, pos 0⟩ : V3 SX) ⟨pos 0, pos (-w), pos 0⟩ (pos mu) with hev
    have hzs : (angular_momentum (⟨pos q, pos 0, pos 0⟩ : V3 SX) ⟨pos 0, pos (-w), pos 0⟩).z.sb = true :=
      sb_neg hh.z (by have := mul_pos hq hw; linarith)
    have sN : N.y.sb = false := by
      have a := zmul' (Val.cast 1) hh.x
      have b := zmul Val.lit0 hh.z
      refine (zsub a.1 b.1).2.trans ?_
      rw [b.2, hzs, sb_cast]
      simp
    have sE : ev.y.sb = false := by
      have a := zmul hv.z hh.x
      have b := zmul hv.x hh.z
      have c1 := zsub a.1 b.1
      have s1 : ((V3.cross (⟨pos 0, pos (-w), pos 0⟩ : V3 SX)
          (angular_momentum (⟨pos q, pos 0, pos 0⟩ : V3 SX) ⟨pos 0, pos (-w), pos 0⟩)).y).sb = false := by
        refine c1.2.trans ?_
        rw [b.2, hzs, pos_sb le_rfl]
        simp
      have d1 : Val ((V3.cross (⟨pos 0, pos (-w), pos 0⟩ : V3 SX)
          (angular_momentum (⟨pos q, pos 0, pos 0⟩ : V3 SX) ⟨pos 0, pos (-w), pos 0⟩)).y / pos mu) 0 := by
        have := c1.1.div hm hmu.ne'
        rw [zero_div] at this
        exact this
      rw [sb_zero he.y]
      show (_ && _) = false
      rw [show ((V3.cross (⟨pos 0, pos (-w), pos 0⟩ : V3 SX)
          (angular_momentum (⟨pos q, pos 0, pos 0⟩ : V3 SX) ⟨pos 0, pos (-w), pos 0⟩) / pos mu).y).sb = false from by
        refine (sb_zero d1).trans ?_
        show xor _ _ = false
        rw [s1, pos_sb hmu.le]; rfl]
      rfl
    have hdot : (V3.dot N ev).sb = false := by
      have a := zmul hN.x he.x
      have b := zmul hN.y he.y
      have c1 := zmul hN.z he.z
      have d1 := zadd a.1 b.1
      refine (zadd d1.1 c1.1).2.trans ?_
      rw [d1.2, b.2, sN, sE]
      simp
    rw [hdot] at key
    exact key
  have hpe : (q * w) ^ 2 / mu / (1 + k) = q := by rw [hk]; field_simp; ring
  have ed : Val c.p ((q * w) ^ 2 / mu) := dp ▸ cp
  have ee : Val c.e k := de ▸ ce
  have ei : Val c.incl Real.pi := di ▸ ci
  constructor
  · have h := (C76_coe2rv ed ee ei cO cw cf hm (by positivity) hmu.le (by simp; positivity)).1.x
    have h2 : (coe2rv ((q * w) ^ 2 / mu) k Real.pi Real.pi 0 0 mu).1.x = -q := by
      simp [coe2rv, perifocalPos, perifocalToInertial, M3.mulVec, M3.mul, M3.transpose, V3.dot, rotmat3dx, rotmat3dz]
      exact hpe
    rw [h2] at h
    exact h
  · rw [dp, de, di, dO, dw, df]
    simp [coe2rv, perifocalPos, perifocalToInertial, M3.mulVec, M3.mul, M3.transpose, V3.dot, rotmat3dx, rotmat3dz]
    exact hpe

/-- The same, for a concrete orbit. -/
example : Val (coe2rv (rv2coe (⟨pos 1, pos 0, pos 0⟩ : V3 SX) ⟨pos 0, pos (-(11 / 10)), pos 0⟩ (pos 1)).p
    (rv2coe (⟨pos 1, pos 0, pos 0⟩ : V3 SX) ⟨pos 0, pos (-(11 / 10)), pos 0⟩ (pos 1)).e
    (rv2coe (⟨pos 1, pos 0, pos 0⟩ : V3 SX) ⟨pos 0, pos (-(11 / 10)), pos 0⟩ (pos 1)).incl
    (rv2coe (⟨pos 1, pos 0, pos 0⟩ : V3 SX) ⟨pos 0, pos (-(11 / 10)), pos 0⟩ (pos 1)).raan
    (rv2coe (⟨pos 1, pos 0, pos 0⟩ : V3 SX) ⟨pos 0, pos (-(11 / 10)), pos 0⟩ (pos 1)).argp
    (rv2coe (⟨pos 1, pos 0, pos 0⟩ : V3 SX) ⟨pos 0, pos (-(11 / 10)), pos 0⟩ (pos 1)).true_anom (pos 1)).1.x (-1) :=
  (C76_roundtrip_refuted (q := 1) (w := 11 / 10) (mu := 1) one_pos (by norm_num) one_pos (by norm_num)).1

/-- The hypotheses of `C76_rv2coe` and `C76_kepler` hold for a polar orbit, with negative zeros in the state. -/
example : RelC Val (rv2coe (⟨pos 1, nzero, pos 0⟩ : V3 SX) ⟨nzero, nzero, pos 2⟩ (pos 1)) (rv2coe ⟨1, 0, 0⟩ ⟨0, 0, 2⟩ 1) := by
  have hn : V3.norm (⟨1, 0, 0⟩ : V3 ℝ) = 1 := by
    show Real.sqrt _ = 1
    rw [Real.sqrt_eq_one]; simp [V3.dot]
  refine C76_rv2coe ⟨rfl, rfl, rfl⟩ ⟨rfl, rfl, rfl⟩ rfl one_pos ?_ (Or.inr ?_) ?_
  · simp [angular_momentum, V3.cross]
  · simp [angular_momentum, V3.cross]
  · intro h
    have := congrArg V3.x h
    simp [eccentricity_vector, angular_momentum, V3.cross, hn] at this
    norm_num at this
example : RelO (fun a b => List.Forall₂ ValV a.1 b.1 ∧ List.Forall₂ ValV a.2 b.2)
    (kepler [nzero, pos 1] (⟨pos 1, nzero, pos 0⟩ : V3 SX) ⟨nzero, nzero, pos 2⟩ (pos 1))
    (kepler [0, 1] (⟨1, 0, 0⟩ : V3 ℝ) ⟨0, 0, 2⟩ 1) :=
  C76_kepler ⟨rfl, rfl, rfl⟩ ⟨rfl, rfl, rfl⟩ rfl (.cons rfl (.cons rfl .nil)) one_pos (by simp [angular_momentum, V3.cross])

/-- `C76_alpha` on a parabola. -/
example : Val (((1 : ℕ) : SX) / semimajor_axis (pos 2) (pos 1) (pos 1)) 0 := by
  have := C76_alpha (r := pos 2) (v := pos 1) (mu := pos 1) rfl rfl rfl two_pos one_pos
  rwa [show ((1 : ℕ) : ℝ) / semimajor_axis (2 : ℝ) 1 1 = 0 by norm_num [semimajor_axis]] at this

end Adx
