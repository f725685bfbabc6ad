import Verif.Props.C63b
import Verif.Props.C55d

/-! # C63, continued: `kepler` on ellipses, when a step is made

On an ellipse the derivative can be wrong although a Newton step is made and the returned state is exact: the single
step carries the tangent of the starting value along, multiplied by the length of the step. -/

namespace Adx
open Set Spec V3

/-- A step of Newton's method from `-3/10` that lands on the root `w`, whatever the eccentricity. -/
theorem land_exists : ∃ w ∈ Icc (11 / 20 : ℝ) (3 / 4), (3 / 10 + w) * Real.cos (3 / 10) = Real.sin (3 / 10) + Real.sin w := by
  have c1 := abs_le.1 (Real.cos_bound (x := 3 / 10) (by rw [abs_of_pos] <;> norm_num))
  have s1 := abs_le.1 (Real.sin_bound (x := 3 / 10) (by rw [abs_of_pos] <;> norm_num))
  have s2 := abs_le.1 (Real.sin_bound (x := 11 / 20) (by rw [abs_of_pos] <;> norm_num))
  have s3 := abs_le.1 (Real.sin_bound (x := 3 / 4) (by rw [abs_of_pos] <;> norm_num))
  rw [abs_of_pos (by norm_num)] at c1 s1 s2 s3
  have hc : ContinuousOn (fun w : ℝ => (3 / 10 + w) * Real.cos (3 / 10) - (Real.sin (3 / 10) + Real.sin w))
      (Icc (11 / 20) (3 / 4)) := by fun_prop
  obtain ⟨w, hw, h⟩ := intermediate_value_Icc (by norm_num) hc (show (0 : ℝ) ∈ _ by
    constructor <;> linarith [c1.1, c1.2, s1.1, s1.2, s2.1, s2.2, s3.1, s3.2])
  exact ⟨w, hw, by linarith [h]⟩

/-- The same with a small start. -/
theorem land_small {u : ℝ} (h0 : 0 < u) (h1 : u ≤ 1 / 5) :
    ∃ w ∈ Icc (9 / 5 * u) (11 / 5 * u), (u + w) * Real.cos u = Real.sin u + Real.sin w := by
  have c1 := abs_le.1 (Real.cos_bound (x := u) (by rw [abs_of_pos h0]; linarith))
  have s1 := abs_le.1 (Real.sin_bound (x := u) (by rw [abs_of_pos h0]; linarith))
  have s2 := abs_le.1 (Real.sin_bound (x := 9 / 5 * u) (by rw [abs_of_pos (by linarith)]; linarith))
  have s3 := abs_le.1 (Real.sin_bound (x := 11 / 5 * u) (by rw [abs_of_pos (by linarith)]; linarith))
  rw [abs_of_pos h0] at c1 s1
  rw [abs_of_pos (by linarith)] at s2 s3
  have hu3 : 0 < u ^ 3 := by positivity
  have hu4 : u ^ 4 ≤ u ^ 3 * (1 / 5) := by rw [pow_succ]; exact mul_le_mul_of_nonneg_left h1 hu3.le
  have hu5 : u ^ 5 ≤ u ^ 3 * (1 / 25) := by
    have : u ^ 5 = u ^ 4 * u := by ring
    nlinarith [pow_pos h0 4]
  have hc : ContinuousOn (fun w : ℝ => (u + w) * Real.cos u - (Real.sin u + Real.sin w))
      (Icc (9 / 5 * u) (11 / 5 * u)) := by fun_prop
  obtain ⟨w, hw, h⟩ := intermediate_value_Icc (by linarith) hc (show (0 : ℝ) ∈ _ by
    constructor
    · have := mul_le_mul_of_nonneg_left c1.2 (show 0 ≤ u + 9 / 5 * u by linarith)
      nlinarith [s1.1, s2.1]
    · have := mul_le_mul_of_nonneg_left c1.1 (show 0 ≤ u + 11 / 5 * u by linarith)
      nlinarith [s1.2, s3.2])
  exact ⟨w, hw, by linarith [h]⟩

/-- The numbers of that step for `e = 7/10`. -/
theorem land_numbers {w : ℝ} (hw : w ∈ Icc (11 / 20 : ℝ) (3 / 4)) :
    33 / 100 ≤ 1 - 7 / 10 * Real.cos (3 / 10) ∧
    -1 ≤ (-(3 / 10) - (w - 7 / 10 * Real.sin w)) / (7 / 10) ∧ (-(3 / 10) - (w - 7 / 10 * Real.sin w)) / (7 / 10) ≤ 1 ∧
    7 / 5 ≤ (1 + (3 / 10 + w) * (7 / 10 * Real.sin (3 / 10))) * (1 - 7 / 10 * Real.cos w) / (1 - 7 / 10 * Real.cos (3 / 10)) := by
  obtain ⟨h1, h2⟩ := hw
  have c1 := abs_le.1 (Real.cos_bound (x := 3 / 10) (by rw [abs_of_pos] <;> norm_num))
  have s1 := abs_le.1 (Real.sin_bound (x := 3 / 10) (by rw [abs_of_pos] <;> norm_num))
  have s2 := abs_le.1 (Real.sin_bound (x := 11 / 20) (by rw [abs_of_pos] <;> norm_num))
  have c2 := abs_le.1 (Real.cos_bound (x := 11 / 20) (by rw [abs_of_pos] <;> norm_num))
  rw [abs_of_pos (by norm_num)] at c1 s1 s2 c2
  have hp := Real.pi_gt_three
  have hs : Real.sin (11 / 20) ≤ Real.sin w := Real.sin_le_sin_of_le_of_le_pi_div_two (by linarith) (by linarith) h1
  have hcw : Real.cos w ≤ Real.cos (11 / 20) := Real.cos_le_cos_of_nonneg_of_le_pi (by norm_num) (by linarith) h1
  have hw1 := Real.sin_le_one w
  have hd : 33 / 100 ≤ 1 - 7 / 10 * Real.cos (3 / 10) := by linarith [c1.2]
  refine ⟨hd, ?_, ?_, ?_⟩
  · rw [le_div_iff₀ (by norm_num)]; linarith [s2.1]
  · rw [div_le_iff₀ (by norm_num)]; linarith
  · rw [le_div_iff₀ (by linarith)]
    have ha : 1175 / 1000 ≤ 1 + (3 / 10 + w) * (7 / 10 * Real.sin (3 / 10)) := by
      have := mul_le_mul (show (85 / 100 : ℝ) ≤ 3 / 10 + w by linarith)
        (show 2065 / 10000 ≤ 7 / 10 * Real.sin (3 / 10) by linarith [s1.1]) (by norm_num) (by linarith)
      linarith
    have hb : 402 / 1000 ≤ 1 - 7 / 10 * Real.cos w := by linarith [c2.2]
    have := mul_le_mul ha hb (by norm_num) (by linarith)
    linarith [c1.1]

section
variable {r v : V3 ℝ} {mu : ℝ}

/-- The search that lands: from the starting value `-u` the first step reaches the root `w`, and the tangent of
the universal variable is `√mu (1 + (u + w) e sin u) / (a (1 - e cos u))`. -/
theorem land_chi (hmu : 0 < mu) (ha0 : 0 < aOf r v mu) {e : ℝ} (he : eOf r v mu = e) {E0 t u w : ℝ}
    (n0 : 0 < u + w) (n1 : 0 < 1 - e * Real.cos u)
    (hbig0 : defaultTol < Real.sqrt (aOf r v mu) ^ 3 * ((u + w) * (1 - e * Real.cos u)))
    (hland : (u + w) * Real.cos u = Real.sin u + Real.sin w)
    (hE0 : w - e * Real.sin w + e * Real.sin E0 = -u)
    (hecc : IsEccentric mu (aOf r v mu) (eOf r v mu) r v E0)
    (hmean : meanAt r v mu E0 t = w - e * Real.sin w) :
    Dual.dot (chiOf ⟨t, some 1⟩ (cst (alphaOf r v mu)) (cst (V3.norm r)) (cst (sigma_fn r v mu)) (cst mu))
        = Real.sqrt mu * (1 + (u + w) * (e * Real.sin u))
          / (aOf r v mu * (1 - e * Real.cos u)) ∧
      chiOf t (alphaOf r v mu) (V3.norm r) (sigma_fn r v mu) mu = Real.sqrt (aOf r v mu) * (w - E0) ∧
      defaultTol < |kepler_equ_uni (uniStart t (alphaOf r v mu) mu) (alphaOf r v mu) (V3.norm r) (sigma_fn r v mu) t mu| := by
  have hb : 0 < Real.sqrt (aOf r v mu) := Real.sqrt_pos.2 ha0
  have hb2 : Real.sqrt (aOf r v mu) ^ 2 = aOf r v mu := Real.sq_sqrt ha0.le
  have hs := Real.sqrt_pos.2 hmu
  have hal : alphaOf r v mu = 1 / aOf r v mu := rfl
  have hx := C55_elliptic_newton hmu ha0 hecc t
  have hx0 := hx 0
  have hx1 := hx 1
  simp only [Function.iterate_zero, Function.iterate_one, id_eq] at hx0 hx1
  have hstart : meanAt r v mu E0 t + eOf r v mu * Real.sin E0 = -u := by rw [hmean, he, hE0]
  rw [hstart] at hx0 hx1
  have hf0 : kepler_equ_elps (-u) (eOf r v mu) (meanAt r v mu E0 t)
      = -((u + w) * (1 - e * Real.cos u)) := by
    rw [kep_elps_eq, he, hmean, Real.sin_neg]; linear_combination e * -hland
  have hnw : newtonElps (meanAt r v mu E0 t) (eOf r v mu) (-u) = w := by
    have hd : dE (-u) (eOf r v mu) = 1 - e * Real.cos u := by simp [dE, he]
    rw [newtonElps, hf0, hd, neg_div, mul_div_assoc, div_self n1.ne']; ring
  rw [hnw] at hx1
  have r0 := (C53_elliptic_equation hmu ha0 hecc t (-u)).1
  have r1 := (C53_elliptic_equation hmu ha0 hecc t w).1
  rw [← meanAt] at r0 r1
  rw [hf0] at r0
  rw [show kepler_equ_elps w (eOf r v mu) (meanAt r v mu E0 t) = 0 by rw [kep_elps_eq, he, hmean]; ring, mul_zero] at r1
  have hbig : (defaultTol : ℝ) < |kepler_equ_uni (uniStart t (alphaOf r v mu) mu) (alphaOf r v mu) (V3.norm r)
      (sigma_fn r v mu) t mu| := by
    rw [hal, hx0, r0, abs_mul, abs_neg, abs_of_pos (by positivity), abs_of_pos (mul_pos n0 n1)]
    exact hbig0
  obtain ⟨k, hk, hd, g1, g2⟩ := uni_dual (⟨t, some 1⟩ : Dual ℝ) (cst (alphaOf r v mu)) (cst (V3.norm r))
    (cst (sigma_fn r v mu)) (cst mu) defaultTol 50
  have hk1 : k = 1 := by
    rcases k with _ | _ | k
    · exact absurd (g2 (by norm_num)) (not_le.2 hbig)
    · rfl
    · have := g1 1 (by omega)
      simp only [Function.iterate_one, hal, hx1, r1] at this
      norm_num [defaultTol] at this
  subst hk1
  have hd' : solve_kepler_uni (⟨t, some 1⟩ : Dual ℝ) (cst (alphaOf r v mu)) (cst (V3.norm r)) (cst (sigma_fn r v mu)) (cst mu)
      = some (newtonUni (⟨t, some 1⟩ : Dual ℝ) (cst (alphaOf r v mu)) (cst (V3.norm r)) (cst (sigma_fn r v mu)) (cst mu)
        (uniStart (⟨t, some 1⟩ : Dual ℝ) (cst (alphaOf r v mu)) (cst mu))) := hd
  rw [solve_eq_chiOf] at hd'
  have hd' := Option.some.inj hd'
  have hal0 : alphaOf r v mu ≠ 0 := by rw [hal]; positivity
  have hT : Tracks (fun x : ℝ => x) t (⟨t, some 1⟩ : Dual ℝ) := Tracks.var t
  have hX := tracks_uniStart hT (Tracks.const (alphaOf r v mu)) (Tracks.const mu) hal0 hmu
  obtain ⟨p1, p2⟩ := (isEccentric_iff hmu ha0).1 hecc
  obtain ⟨k1, k2, -⟩ := kep_elps_change hb (eOf r v mu) E0 (-u)
  have hα : alphaOf r v mu = 1 / Real.sqrt (aOf r v mu) ^ 2 := by rw [hal, hb2]
  rw [← p1, ← p2, ← hα, ← hx0, ← hal, he, Real.cos_neg] at k1
  rw [← p1, ← p2, ← hα, ← hx0, ← hal, he, Real.sin_neg] at k2
  refine ⟨?_, ?_, hbig⟩
  · have ht := C63_uni_tangent hT hX hal0 hmu (r0 := V3.norm r) (s0 := sigma_fn r v mu)
      (by rw [k1]; exact mul_ne_zero (by positivity) n1.ne')
    rw [hd', ht]
    have hdx : Dual.dot (uniStart (⟨t, some 1⟩ : Dual ℝ) (cst (alphaOf r v mu)) (cst mu)) = Real.sqrt mu * |alphaOf r v mu| := by
      show (Dual.addTan none (some (Real.sqrt mu * |alphaOf r v mu| * 1))).getD 0 = _
      simp [Dual.addTan]
    have hdt : Dual.dot (⟨t, some 1⟩ : Dual ℝ) = 1 := rfl
    rw [k1, k2, hdx, hdt, hal, hx1, hx0, abs_of_pos (by positivity), hb2]
    have h2 : (Real.sqrt (aOf r v mu) * (-u - E0) - Real.sqrt (aOf r v mu) * (w - E0))
        * (Real.sqrt (aOf r v mu) * (e * -Real.sin u)) * (Real.sqrt mu * (1 / aOf r v mu))
        = Real.sqrt mu * ((u + w) * (e * Real.sin u)) := by
      have : (Real.sqrt (aOf r v mu) * (-u - E0) - Real.sqrt (aOf r v mu) * (w - E0))
        * (Real.sqrt (aOf r v mu) * (e * -Real.sin u))
        = Real.sqrt (aOf r v mu) ^ 2 * ((u + w) * (e * Real.sin u)) := by ring
      rw [this, hb2]; field_simp
    rw [h2]; congr 1; ring
  · have := chiOf_vals (⟨t, some 1⟩ : Dual ℝ) (cst (alphaOf r v mu)) (cst (V3.norm r)) (cst (sigma_fn r v mu)) (cst mu)
    rw [← show newtonUni t (alphaOf r v mu) (V3.norm r) (sigma_fn r v mu) mu (uniStart t (alphaOf r v mu) mu)
      = Real.sqrt (aOf r v mu) * (w - E0) by rw [hal]; exact hx1]
    have h1 : solve_kepler_uni t (alphaOf r v mu) (V3.norm r) (sigma_fn r v mu) mu defaultTol 50
        = some ((newtonUni t (alphaOf r v mu) (V3.norm r) (sigma_fn r v mu) mu)^[1] (uniStart t (alphaOf r v mu) mu)) :=
      uni_of_tests hk (fun j hj => by
        obtain rfl : j = 0 := by omega
        simpa using hbig) (fun _ => by
        simp only [Function.iterate_one, hal, hx1, r1]; norm_num [defaultTol])
    have h2 : solve_kepler_uni t (alphaOf r v mu) (V3.norm r) (sigma_fn r v mu) mu
        = some (newtonUni t (alphaOf r v mu) (V3.norm r) (sigma_fn r v mu) mu (uniStart t (alphaOf r v mu) mu)) := h1
    rw [solve_eq_chiOf] at h2
    exact Option.some.inj h2

/-- What `kepler` returns when the search lands, started at a suitable phase of the orbit. -/
theorem land_kepler (hmu : 0 < mu) (hh : angular_momentum r v ≠ ⟨0, 0, 0⟩) (ha0 : 0 < aOf r v mu) {e u w : ℝ}
    (he : eOf r v mu = e) (he0 : 0 < e) (n0 : 0 < u + w) (n1 : 0 < 1 - e * Real.cos u)
    (hbig0 : defaultTol < Real.sqrt (aOf r v mu) ^ 3 * ((u + w) * (1 - e * Real.cos u)))
    (hland : (u + w) * Real.cos u = Real.sin u + Real.sin w)
    (n2 : -1 ≤ (-u - (w - e * Real.sin w)) / e) (n3 : (-u - (w - e * Real.sin w)) / e ≤ 1) {c : ℝ} (hc1 : 1 < c)
    (n4 : c ≤ (1 + (u + w) * (e * Real.sin u)) * (1 - e * Real.cos w) / (1 - e * Real.cos u)) :
    ∃ t0 t ρ : ℝ, ∃ r' v', (r', v') = exactProp r v mu t0 ∧ c ≤ ρ ∧
      defaultTol < |kepler_equ_uni (uniStart t (alphaOf r' v' mu) mu) (alphaOf r' v' mu) (V3.norm r')
        (sigma_fn r' v' mu) t mu| ∧
      ∃ R V, kepler [(⟨t, some 1⟩ : Dual ℝ)] (cstV r') (cstV v') (cst mu) = some ([R], [V]) ∧
        (R.vals, V.vals) = exactProp r' v' mu t ∧
        dots R = ρ • V.vals ∧ dots V = ρ • ((-mu / V3.norm R.vals ^ 3) • R.vals) ∧
        HasDerivV (fun t => (exactProp r' v' mu t).1) V.vals t ∧ dots R ≠ V.vals := by
  obtain ⟨E0, hE0⟩ : ∃ E0, w - e * Real.sin w + e * Real.sin E0 = -u :=
    ⟨Real.arcsin ((-u - (w - e * Real.sin w)) / e), by rw [Real.sin_arcsin n2 n3]; field_simp; ring⟩
  obtain ⟨t0, hecc, haa, hee⟩ := reach_phase hmu hh ha0 E0
  have hn : 0 < Real.sqrt (mu / aOf r v mu ^ 3) := Real.sqrt_pos.2 (by positivity)
  obtain ⟨t, ht⟩ : ∃ t, t = (w - e * Real.sin w - (E0 - e * Real.sin E0)) / Real.sqrt (mu / aOf r v mu ^ 3) := ⟨_, rfl⟩
  have hh1 : angular_momentum (exactProp r v mu t0).1 (exactProp r v mu t0).2 = angular_momentum r v :=
    step_h (pos_ne hmu hh) hmu (radOf_pos hmu hh).ne'
  obtain ⟨s', hs'⟩ : ∃ s', s' = exactProp r v mu t0 := ⟨_, rfl⟩
  rw [← hs'] at hecc haa hee hh1
  obtain ⟨r', v'⟩ := s'
  simp only at haa hee hecc hh1
  have hh' : angular_momentum r' v' ≠ ⟨0, 0, 0⟩ := by rw [hh1]; exact hh
  have hmean : meanAt r' v' mu E0 t = w - e * Real.sin w := by
    rw [meanAt, haa, hee, he]
    simp only [mean_anomaly_elps, sqrt_real]
    rw [ht, mul_div_cancel₀ _ hn.ne']; ring
  have ha0' : 0 < aOf r' v' mu := by rw [haa]; exact ha0
  have he' : eOf r' v' mu = e := by rw [hee, he]
  rw [← haa, ← hee] at hecc
  obtain ⟨q1, q2, q3⟩ := land_chi hmu ha0' he' n0 n1 (by rw [haa]; exact hbig0) hland hE0 hecc hmean
  obtain ⟨m1, -, -, m4⟩ := C53_elliptic_motion hmu hh' ha0' hecc (t := t) (E := w) (by
    rw [← meanAt, kep_elps_eq, he', hmean]; ring)
  have hal : alphaOf r' v' mu ≠ 0 := by rw [alphaOf_elps ha0']; positivity
  obtain ⟨R, V, h1, h2, h3, h4⟩ := C63_kepler_rate hmu hh' hal (⟨t, some 1⟩ : Dual ℝ)
  have hRV : (R.vals, V.vals) = exactProp r' v' mu t := by
    rw [kepler_eq_map] at h2
    simp only [List.map_cons, List.map_nil, keplerRow_real, q2, ← m4] at h2
    obtain ⟨hR, hV⟩ := Prod.mk.inj (Option.some.inj h2)
    have hR : R.vals = (stepOf r' v' mu (exactChi r' v' mu t)).1 := by simpa using hR.symm
    have hV : V.vals = (stepOf r' v' mu (exactChi r' v' mu t)).2 := by simpa using hV.symm
    rw [hR, hV]; rfl
  have hRn : V3.norm R.vals = aOf r' v' mu * (1 - e * Real.cos w) := by
    rw [show R.vals = (exactProp r' v' mu t).1 by rw [← hRV], ← he', norm_unfold]
    exact m1.1
  have hs := Real.sqrt_pos.2 hmu
  have hrate : Dual.dot (chiOf ⟨t, some 1⟩ (cst (alphaOf r' v' mu)) (cst (V3.norm r')) (cst (sigma_fn r' v' mu)) (cst mu))
      * V3.norm R.vals / Real.sqrt mu
      = (1 + (u + w) * (e * Real.sin u)) * (1 - e * Real.cos w) / (1 - e * Real.cos u) := by
    rw [q1, hRn]
    have := n1.ne'
    field_simp
  rw [hrate] at h3 h4
  have hz := C21_solves_two_body hmu hh'
  have hV : V.vals = (exactProp r' v' mu t).2 := by rw [← hRV]
  refine ⟨t0, t, _, r', v', hs', n4, q3, R, V, h1, hRV, h3, h4, ?_, ?_⟩
  · rw [hV]; exact (hz.2 t (Set.mem_univ _)).2.1
  · rw [h3]
    set ρ := (1 + (u + w) * (e * Real.sin u)) * (1 - e * Real.cos w) / (1 - e * Real.cos u)
    intro hc
    have hk : ∀ y : ℝ, ρ * y = y → y = 0 := fun y hy => by
      have : (ρ - 1) * y = 0 := by linarith
      exact (mul_eq_zero.1 this).resolve_left (by linarith)
    have hx := congrArg V3.x hc
    have hy := congrArg V3.y hc
    have hzz := congrArg V3.z hc
    simp only [smul_x, smul_y, smul_z] at hx hy hzz
    have hv0 : (exactProp r' v' mu t).2 = ⟨0, 0, 0⟩ := by
      rw [← hV]; ext
      · exact hk _ hx
      · exact hk _ hy
      · exact hk _ hzz
    have hh2 : angular_momentum (exactProp r' v' mu t).1 (exactProp r' v' mu t).2 = angular_momentum r' v' :=
      step_h (pos_ne hmu hh') hmu (radOf_pos hmu hh').ne'
    rw [hv0] at hh2
    apply hh'
    rw [← hh2]
    ext <;> simp [angular_momentum, cross]

/-- C63, refuted for `kepler` when a step is made: on every ellipse with `e = 7/10` and `a ≥ 1` there are a state and
a time for which the starting value fails the residual test, the returned state is exactly that of the motion, and
its derivatives with respect to time come out as at least 7/5 of the velocity and of the acceleration. -/
theorem C63_kepler_ellipse_refuted (hmu : 0 < mu) (hh : angular_momentum r v ≠ ⟨0, 0, 0⟩) (ha : 1 ≤ aOf r v mu)
    (he : eOf r v mu = 7 / 10) :
    ∃ t0 t ρ : ℝ, ∃ r' v', (r', v') = exactProp r v mu t0 ∧ 7 / 5 ≤ ρ ∧
      defaultTol < |kepler_equ_uni (uniStart t (alphaOf r' v' mu) mu) (alphaOf r' v' mu) (V3.norm r')
        (sigma_fn r' v' mu) t mu| ∧
      ∃ R V, kepler [(⟨t, some 1⟩ : Dual ℝ)] (cstV r') (cstV v') (cst mu) = some ([R], [V]) ∧
        (R.vals, V.vals) = exactProp r' v' mu t ∧
        dots R = ρ • V.vals ∧ dots V = ρ • ((-mu / V3.norm R.vals ^ 3) • R.vals) ∧
        HasDerivV (fun t => (exactProp r' v' mu t).1) V.vals t ∧ dots R ≠ V.vals := by
  obtain ⟨w, hw, hland⟩ := land_exists
  obtain ⟨n1, n2, n3, n4⟩ := land_numbers hw
  have h1 : 1 ≤ Real.sqrt (aOf r v mu) ^ 3 := one_le_pow₀ (Real.one_le_sqrt.2 ha)
  have h2 : 1 / 10 ≤ (3 / 10 + w) * (1 - 7 / 10 * Real.cos (3 / 10)) := by nlinarith [hw.1]
  have h3 : (defaultTol : ℝ) < 1 / 10 := by norm_num [defaultTol]
  exact land_kepler hmu hh (by linarith) he (by norm_num) (by linarith [hw.1]) (by linarith) (by nlinarith) hland n2 n3
    (by norm_num) n4

/-- The same on every ellipse that is not a circle: the factor is at least `1 + e³/10`, whatever the tolerance, which
only limits the size `a` from below. -/
theorem C63_kepler_every_ellipse_refuted (hmu : 0 < mu) (hh : angular_momentum r v ≠ ⟨0, 0, 0⟩) (ha : 0 < aOf r v mu)
    (he0 : 0 < eOf r v mu)
    (hbig : 2 * defaultTol < Real.sqrt (aOf r v mu) ^ 3 * (eOf r v mu * (1 - eOf r v mu))) :
    ∃ t0 t ρ : ℝ, ∃ r' v', (r', v') = exactProp r v mu t0 ∧ 1 + eOf r v mu ^ 3 / 10 ≤ ρ ∧
      defaultTol < |kepler_equ_uni (uniStart t (alphaOf r' v' mu) mu) (alphaOf r' v' mu) (V3.norm r')
        (sigma_fn r' v' mu) t mu| ∧
      ∃ R V, kepler [(⟨t, some 1⟩ : Dual ℝ)] (cstV r') (cstV v') (cst mu) = some ([R], [V]) ∧
        (R.vals, V.vals) = exactProp r' v' mu t ∧
        dots R = ρ • V.vals ∧ dots V = ρ • ((-mu / V3.norm R.vals ^ 3) • R.vals) ∧
        HasDerivV (fun t => (exactProp r' v' mu t).1) V.vals t ∧ dots R ≠ V.vals := by
  obtain ⟨e, he⟩ : ∃ e, eOf r v mu = e := ⟨_, rfl⟩
  rw [he] at he0 hbig ⊢
  have hb : 0 < Real.sqrt (aOf r v mu) ^ 3 := pow_pos (Real.sqrt_pos.2 ha) 3
  have he1 : e < 1 := by
    have h3 : (0 : ℝ) < defaultTol := by norm_num [defaultTol]
    by_contra hc
    have : Real.sqrt (aOf r v mu) ^ 3 * (e * (1 - e)) ≤ 0 :=
      mul_nonpos_of_nonneg_of_nonpos hb.le (mul_nonpos_of_nonneg_of_nonpos he0.le (by linarith))
    linarith
  obtain ⟨w, ⟨hw1, hw2⟩, hland⟩ := land_small (u := e / 5) (by linarith) (by linarith)
  have hp := Real.pi_gt_three
  have hcu := Real.cos_le_one (e / 5)
  have hd : 1 - e ≤ 1 - e * Real.cos (e / 5) := by nlinarith
  have hcw : Real.cos w ≤ Real.cos (e / 5) :=
    Real.cos_le_cos_of_nonneg_of_le_pi (by linarith) (by linarith) (by linarith)
  have hsw : 0 ≤ Real.sin w := Real.sin_nonneg_of_nonneg_of_le_pi (by linarith) (by linarith)
  have hsw1 := Real.sin_le_one w
  have hsu : 49 / 50 * (e / 5) ≤ Real.sin (e / 5) := by
    have := Real.sin_gt_sub_cube (x := e / 5) (by linarith)
    nlinarith [pow_pos he0 2]
  have hx : 1 + e ^ 3 / 10 ≤ 1 + (e / 5 + w) * (e * Real.sin (e / 5)) := by
    have h1 := mul_le_mul (show 14 / 5 * (e / 5) ≤ e / 5 + w by linarith)
      (mul_le_mul_of_nonneg_left hsu he0.le) (by positivity) (by linarith)
    nlinarith [pow_pos he0 3]
  refine land_kepler hmu hh ha he he0 (by linarith) (by linarith) ?_ hland ?_ ?_
    (show 1 < 1 + e ^ 3 / 10 by linarith [pow_pos he0 3]) ?_
  · have h1 : e * (1 - e) / 2 ≤ (e / 5 + w) * (1 - e * Real.cos (e / 5)) := by
      have := mul_le_mul (show 1 / 2 * e ≤ e / 5 + w by linarith) hd (by linarith) (by linarith)
      linarith
    have h2 := mul_le_mul_of_nonneg_left h1 hb.le
    linarith
  · rw [le_div_iff₀ he0]; nlinarith
  · rw [div_le_iff₀ he0]; nlinarith
  · rw [le_div_iff₀ (by linarith)]
    exact mul_le_mul hx (by nlinarith) (by linarith) (by linarith [pow_pos he0 3])

end

/-- An ellipse that meets the hypotheses: `r = (3/10, 0, 0)`, `v = (0, √(17/3), 0)`, `mu = 1`. -/
theorem land_example : angular_momentum (⟨3 / 10, 0, 0⟩ : V3 ℝ) ⟨0, Real.sqrt (17 / 3), 0⟩ ≠ ⟨0, 0, 0⟩ ∧
    aOf ⟨3 / 10, 0, 0⟩ ⟨0, Real.sqrt (17 / 3), 0⟩ 1 = 1 ∧ eOf ⟨3 / 10, 0, 0⟩ ⟨0, Real.sqrt (17 / 3), 0⟩ 1 = 7 / 10 := by
  have hq : Real.sqrt (17 / 3) ^ 2 = 17 / 3 := Real.sq_sqrt (by norm_num)
  have h : angular_momentum (⟨3 / 10, 0, 0⟩ : V3 ℝ) ⟨0, Real.sqrt (17 / 3), 0⟩ ≠ ⟨0, 0, 0⟩ := by
    intro h
    have := congrArg V3.z h
    simp [angular_momentum, V3.cross] at this
  have hn : V3.norm (⟨3 / 10, 0, 0⟩ : V3 ℝ) = 3 / 10 := by
    rw [norm_unfold, Real.sqrt_eq_iff_mul_self_eq_of_pos (by norm_num)]; norm_num
  have hn' : V3.norm (⟨0, Real.sqrt (17 / 3), 0⟩ : V3 ℝ) ^ 2 = 17 / 3 := by
    rw [norm_unfold, Real.sq_sqrt (by positivity)]; simp only [hq]; norm_num
  have ha : aOf ⟨3 / 10, 0, 0⟩ ⟨0, Real.sqrt (17 / 3), 0⟩ 1 = 1 := by
    simp only [aOf, semimajor_axis, hn, hn', Nat.cast_ofNat, Nat.cast_one]; norm_num
  refine ⟨h, ha, ?_⟩
  have hs : sigma_fn (⟨3 / 10, 0, 0⟩ : V3 ℝ) ⟨0, Real.sqrt (17 / 3), 0⟩ 1 = 0 := by
    have := sigma_rv (r := ⟨3 / 10, 0, 0⟩) (v := ⟨0, Real.sqrt (17 / 3), 0⟩) (mu := 1) one_pos
    simp only [V3.dot, mul_zero, zero_mul, add_zero, Real.sqrt_one, one_mul] at this
    exact this.symm
  have h1 := pOf_inv (r := ⟨3 / 10, 0, 0⟩) (v := ⟨0, Real.sqrt (17 / 3), 0⟩) (mu := 1) one_pos h
  have h2 := pOf_alpha (r := ⟨3 / 10, 0, 0⟩) (v := ⟨0, Real.sqrt (17 / 3), 0⟩) (mu := 1) one_pos h
  have hα : alphaOf (⟨3 / 10, 0, 0⟩ : V3 ℝ) ⟨0, Real.sqrt (17 / 3), 0⟩ 1 = 1 := by
    have : alphaOf (⟨3 / 10, 0, 0⟩ : V3 ℝ) ⟨0, Real.sqrt (17 / 3), 0⟩ 1
        = 1 / aOf ⟨3 / 10, 0, 0⟩ ⟨0, Real.sqrt (17 / 3), 0⟩ 1 := rfl
    rw [this, ha]; norm_num
  rw [hα, hn, hs] at h1
  rw [hα, ← h1] at h2
  have he0 : 0 ≤ eOf (⟨3 / 10, 0, 0⟩ : V3 ℝ) ⟨0, Real.sqrt (17 / 3), 0⟩ 1 := V3.norm_nonneg _
  have : eOf (⟨3 / 10, 0, 0⟩ : V3 ℝ) ⟨0, Real.sqrt (17 / 3), 0⟩ 1 ^ 2 = (7 / 10) ^ 2 := by linarith
  exact (sq_eq_sq₀ he0 (by norm_num)).1 this

/-- The refutation on that ellipse. -/
example : ∃ t0 t ρ : ℝ, ∃ r' v', (r', v') = exactProp ⟨3 / 10, 0, 0⟩ ⟨0, Real.sqrt (17 / 3), 0⟩ 1 t0 ∧ 7 / 5 ≤ ρ ∧
    ∃ R V, kepler [(⟨t, some 1⟩ : Dual ℝ)] (cstV r') (cstV v') (cst 1) = some ([R], [V]) ∧
      (R.vals, V.vals) = exactProp r' v' 1 t ∧ dots R = ρ • V.vals ∧ dots R ≠ V.vals := by
  obtain ⟨h, ha, he⟩ := land_example
  obtain ⟨t0, t, ρ, r', v', h1, h2, -, R, V, h3, h4, h5, -, -, h6⟩ := C63_kepler_ellipse_refuted one_pos h ha.ge he
  exact ⟨t0, t, ρ, r', v', h1, h2, R, V, h3, h4, h5, h6⟩

/-- That ellipse is also large enough for the second refutation. -/
example : 2 * defaultTol < Real.sqrt (aOf ⟨3 / 10, 0, 0⟩ ⟨0, Real.sqrt (17 / 3), 0⟩ 1) ^ 3
    * (eOf ⟨3 / 10, 0, 0⟩ ⟨0, Real.sqrt (17 / 3), 0⟩ 1 * (1 - eOf ⟨3 / 10, 0, 0⟩ ⟨0, Real.sqrt (17 / 3), 0⟩ 1)) := by
  obtain ⟨-, ha, he⟩ := land_example
  rw [ha, he]; norm_num [defaultTol]

end Adx
