import Verif.Props.C48b
import Verif.Props.C63b
import Verif.Lemmas.DualXR

/-! # C64: exactly where a derivative taken by tracing is NaN

The model run on traced IEEE values (`Dual XR`). First part: on the smooth domain the tangents are finite and are the
exact-arithmetic ones of C62 and C63, so no theorem there rests on `x / 0 = 0`. Second part (C64b): the states where
the value is finite and the tangent is NaN. -/

namespace Adx
open XR (fin pinf ninf nan vec vec_norm)
open XRDual

variable {a mu P r v p e f h U0 U1 U2 s0 chi alpha E M H N t dt : Dual ℝ} {rv vv ev nv hv : V3 (Dual ℝ)}

/-! ### `_orb_integrals.py` -/

theorem C64_orb_period (ha : 0 < a.val) (hm : 0 < mu.val) :
    orb_period (dfin a) (dfin mu) = dfin (orb_period a mu) := by
  have h3 : 0 < (a ^ 3 / mu).val := div_pos (pow_pos ha 3) hm
  simp only [orb_period, nat, pi, mul, pow, div hm.ne', sqrt h3]

theorem C64_a_from_period (hP : P.val ≠ 0) (hm : 0 < mu.val) :
    a_from_period (dfin P) (dfin mu) = dfin (a_from_period P mu) := by
  have h1 : (JFun.pi ^ 2 : Dual ℝ).val ≠ 0 := pow_ne_zero 2 Real.pi_ne_zero
  have h4 : ((4 : ℕ) : Dual ℝ).val ≠ 0 := by show ((4 : ℕ) : ℝ) ≠ 0; norm_num
  have hd : 0 < (P ^ 2 * mu / ((4 : ℕ) : Dual ℝ) / JFun.pi ^ 2).val := by
    show 0 < P.val ^ 2 * mu.val / ((4 : ℕ) : ℝ) / Real.pi ^ 2
    have := Real.pi_pos
    have := pow_pos (abs_pos.2 hP) 2; rw [sq_abs] at this
    positivity
  simp only [a_from_period, nat, pi, mul, pow, div h4, div h1, cbrt hd]

theorem C64_angular_momentum : angular_momentum (dvec rv) (dvec vv) = dvec (angular_momentum rv vv) := by
  simp only [angular_momentum, vcross]

theorem C64_semimajor_axis (hr : r.val ≠ 0) (hm : mu.val ≠ 0) (hp : 2 / r.val - v.val ^ 2 / mu.val ≠ 0) :
    semimajor_axis (dfin r) (dfin v) (dfin mu) = dfin (semimajor_axis r v mu) := by
  have h : (((2 : ℕ) : Dual ℝ) / r - v ^ 2 / mu).val ≠ 0 := by
    show ((2 : ℕ) : ℝ) / r.val - v.val ^ 2 / mu.val ≠ 0
    simpa using hp
  simp only [semimajor_axis, nat, pow, div hr, div hm, sub, div h]

theorem vals_ne (h : rv.vals ≠ ⟨0, 0, 0⟩) : rv.x.val ≠ 0 ∨ rv.y.val ≠ 0 ∨ rv.z.val ≠ 0 := by
  by_contra hc
  push Not at hc
  exact h (by rw [V3.vals, hc.1, hc.2.1, hc.2.2])

theorem norm_vals : (V3.norm rv).val = V3.norm rv.vals := rfl

theorem norm_val_pos (h : rv.vals ≠ ⟨0, 0, 0⟩) : 0 < (V3.norm rv).val := by
  rw [norm_vals]; exact (V3.norm_pos _).2 h

theorem C64_norm (h : rv.vals ≠ ⟨0, 0, 0⟩) : V3.norm (dvec rv) = dfin (V3.norm rv) := vnorm _ (vals_ne h)

theorem C64_eccentricity_vector (hr : rv.vals ≠ ⟨0, 0, 0⟩) (hm : mu.val ≠ 0) :
    eccentricity_vector (dvec rv) (dvec vv) (dfin mu) = dvec (eccentricity_vector rv vv mu) := by
  simp only [eccentricity_vector, C64_angular_momentum, vcross, C64_norm hr, vdiv _ hm, vdiv _ (norm_val_pos hr).ne', vsub]

theorem C64_semiparameter (hm : mu.val ≠ 0) : semiparameter (dfin h) (dfin mu) = dfin (semiparameter h mu) := by
  simp only [semiparameter, pow, div hm]

theorem C64_mean_motion (hP : P.val ≠ 0) : mean_motion (dfin P) = dfin (mean_motion P) := by
  simp only [mean_motion, nat, pi, mul, div hP]

theorem C64_equ_of_orbit (hf : 1 + e.val * Real.cos f.val ≠ 0) :
    equ_of_orbit (dfin p) (dfin e) (dfin f) = dfin (equ_of_orbit p e f) := by
  have h : (((1 : ℕ) : Dual ℝ) + e * JFun.cos f).val ≠ 0 := by
    show ((1 : ℕ) : ℝ) + e.val * Real.cos f.val ≠ 0
    simpa using hf
  simp only [equ_of_orbit, nat, cos, mul, add, div h]

theorem C64_equ_of_orb_uvi :
    equ_of_orb_uvi (dfin U0) (dfin U1) (dfin U2) (dfin r) (dfin s0) = dfin (equ_of_orb_uvi U0 U1 U2 r s0) := by
  simp only [equ_of_orb_uvi, mul, add]

theorem C64_radii (h1 : 1 + e.val ≠ 0) (h2 : e.val ≠ 1) :
    radius_periapsis (dfin p) (dfin e) = dfin (radius_periapsis p e) ∧
    radius_apoapsis (dfin p) (dfin e) = dfin (radius_apoapsis p e) ∧
    semipara_from_ae (dfin a) (dfin e) = dfin (semipara_from_ae a e) ∧
    a_from_pe (dfin p) (dfin e) = dfin (a_from_pe p e) := by
  have k1 : (((1 : ℕ) : Dual ℝ) + e).val ≠ 0 := by show ((1 : ℕ) : ℝ) + e.val ≠ 0; simpa using h1
  have k2 : (((1 : ℕ) : Dual ℝ) - e).val ≠ 0 := by
    show ((1 : ℕ) : ℝ) - e.val ≠ 0; simpa [sub_eq_zero] using h2.symm
  have k3 : (((1 : ℕ) : Dual ℝ) - e ^ 2).val ≠ 0 := by
    show ((1 : ℕ) : ℝ) - e.val ^ 2 ≠ 0
    intro hh
    push_cast at hh
    rcases mul_eq_zero.1 (show (1 + e.val) * (1 - e.val) = 0 by linarith) with hh | hh
    · exact h1 hh
    · exact h2 (by linarith)
  simp only [radius_periapsis, radius_apoapsis, semipara_from_ae, a_from_pe, nat, add, sub, pow, mul, div k1, div k2,
    div k3, and_self]

/-! ### `_uniformulas.py`, `_lagrange.py` -/

theorem C64_sigma_fn (hm : 0 < mu.val) :
    sigma_fn (dvec rv) (dvec vv) (dfin mu) = dfin (sigma_fn rv vv mu) := by
  have h : (JFun.sqrt mu).val ≠ 0 := (Real.sqrt_pos.2 hm).ne'
  simp only [sigma_fn, vdot, sqrt hm, div h]

/-- The six universal functions have finite tangents everywhere, parabolas included. -/
theorem C64_ufunc (chi alpha : Dual ℝ) :
    ufunc0 (dfin chi) (dfin alpha) = dfin (ufunc0 chi alpha) ∧
    ufunc1 (dfin chi) (dfin alpha) = dfin (ufunc1 chi alpha) ∧
    ufunc2 (dfin chi) (dfin alpha) = dfin (ufunc2 chi alpha) ∧
    ufunc3 (dfin chi) (dfin alpha) = dfin (ufunc3 chi alpha) ∧
    ufunc4 (dfin chi) (dfin alpha) = dfin (ufunc4 chi alpha) ∧
    ufunc5 (dfin chi) (dfin alpha) = dfin (ufunc5 chi alpha) := by
  have lit : ∀ n : ℕ, n ≠ 0 → ((n : ℕ) : Dual ℝ).val ≠ 0 := fun n hn => by
    show (n : ℝ) ≠ 0
    exact_mod_cast hn
  have l2 := lit 2 (by norm_num)
  have l6 := lit 6 (by norm_num)
  have l24 := lit 24 (by norm_num)
  have l120 := lit 120 (by norm_num)
  rcases lt_trichotomy alpha.val 0 with h | h | h
  · have c1 : JFun.lt ((0 : ℕ) : Dual ℝ) alpha = false :=
      decide_eq_false (show ¬((0 : ℕ) : ℝ) < alpha.val by push_cast; linarith)
    have c2 : JFun.lt alpha ((0 : ℕ) : Dual ℝ) = true := decide_eq_true (show alpha.val < ((0 : ℕ) : ℝ) by push_cast; exact h)
    have hp : 0 < (-alpha).val := by show 0 < -alpha.val; linarith
    have hn : (JFun.sqrt (-alpha)).val ≠ 0 := (Real.sqrt_pos.2 hp).ne'
    have k2 : (((2 : ℕ) : Dual ℝ) * alpha ^ 2).val ≠ 0 := mul_ne_zero l2 (pow_ne_zero 2 h.ne)
    have k6 : (((6 : ℕ) : Dual ℝ) * alpha ^ 3).val ≠ 0 := mul_ne_zero l6 (pow_ne_zero 3 h.ne)
    simp only [ufunc0, ufunc1, ufunc2, ufunc3, ufunc4, ufunc5, nat, lt, c1, c2, if_true, if_false, Bool.false_eq_true,
      neg, sqrt hp, mul, cosh, sinh, div hn, div h.ne, div hp.ne', sub, add, pow, div k2, div k6, and_self]
  · have c1 : JFun.lt ((0 : ℕ) : Dual ℝ) alpha = false :=
      decide_eq_false (show ¬((0 : ℕ) : ℝ) < alpha.val by push_cast; linarith)
    have c2 : JFun.lt alpha ((0 : ℕ) : Dual ℝ) = false :=
      decide_eq_false (show ¬alpha.val < ((0 : ℕ) : ℝ) by push_cast; linarith)
    simp only [ufunc0, ufunc1, ufunc2, ufunc3, ufunc4, ufunc5, nat, lt, c1, c2, if_false, Bool.false_eq_true,
      pow, div l2, div l6, div l24, div l120, onesLike, and_self]
  · have c1 : JFun.lt ((0 : ℕ) : Dual ℝ) alpha = true := decide_eq_true (show ((0 : ℕ) : ℝ) < alpha.val by push_cast; exact h)
    have hn : (JFun.sqrt alpha).val ≠ 0 := (Real.sqrt_pos.2 h).ne'
    have k2 : (((2 : ℕ) : Dual ℝ) * alpha ^ 2).val ≠ 0 := mul_ne_zero l2 (pow_ne_zero 2 h.ne')
    have k6 : (((6 : ℕ) : Dual ℝ) * alpha ^ 3).val ≠ 0 := mul_ne_zero l6 (pow_ne_zero 3 h.ne')
    simp only [ufunc0, ufunc1, ufunc2, ufunc3, ufunc4, ufunc5, nat, lt, c1, if_true,
      sqrt h, mul, cos, sin, div hn, div h.ne', sub, add, pow, div k2, div k6, and_self]

theorem C64_lagrange {r0 : Dual ℝ} (hr : r.val ≠ 0) (hr0 : r0.val ≠ 0) (hm : 0 < mu.val) :
    lagrange_F (dfin U2) (dfin r0) = dfin (lagrange_F U2 r0) ∧
    lagrange_G (dfin U1) (dfin U2) (dfin s0) (dfin r0) (dfin mu) = dfin (lagrange_G U1 U2 s0 r0 mu) ∧
    lagrange_Ft (dfin U1) (dfin r) (dfin r0) (dfin mu) = dfin (lagrange_Ft U1 r r0 mu) ∧
    lagrange_Gt (dfin U2) (dfin r) = dfin (lagrange_Gt U2 r) := by
  have h : (JFun.sqrt mu).val ≠ 0 := (Real.sqrt_pos.2 hm).ne'
  have h' : (r * r0).val ≠ 0 := mul_ne_zero hr hr0
  simp only [lagrange_F, lagrange_G, lagrange_Ft, lagrange_Gt, nat, sub, add, mul, neg, div hr, div hr0, div h, div h', sqrt hm,
    and_self]

/-! ### `_kep_equ.py` -/

theorem C64_kepler_equ (E e M H N : Dual ℝ) :
    kepler_equ_elps (dfin E) (dfin e) (dfin M) = dfin (kepler_equ_elps E e M) ∧
    dE (dfin E) (dfin e) = dfin (dE E e) ∧
    kepler_equ_hypb (dfin H) (dfin e) (dfin N) = dfin (kepler_equ_hypb H e N) ∧
    dH (dfin H) (dfin e) = dfin (dH H e) := by
  simp only [kepler_equ_elps, dE, kepler_equ_hypb, dH, nat, sub, mul, sin, cos, sinh, cosh, and_self]

theorem C64_mean_anomaly (hm : 0 < mu.val) :
    (0 < a.val → mean_anomaly_elps (dfin a) (dfin t) (dfin mu) = dfin (mean_anomaly_elps a t mu)) ∧
    (a.val < 0 → mean_anomaly_hypb (dfin a) (dfin t) (dfin mu) = dfin (mean_anomaly_hypb a t mu)) := by
  constructor
  · intro ha
    have h1 : (a ^ 3).val ≠ 0 := (pow_pos ha 3).ne'
    have h2 : 0 < (mu / a ^ 3).val := div_pos hm (pow_pos ha 3)
    simp only [mean_anomaly_elps, pow, div h1, sqrt h2, mul]
  · intro ha
    have h0 : 0 < (-a ^ 3).val := by
      show 0 < -a.val ^ 3
      have := Odd.pow_neg (by decide : Odd 3) ha; linarith
    have h2 : 0 < (mu / -a ^ 3).val := div_pos hm h0
    simp only [mean_anomaly_hypb, pow, neg, div h0.ne', sqrt h2, mul]

theorem C64_kepler_equ_uni {r0 : Dual ℝ} (hm : 0 < mu.val) :
    kepler_equ_uni (dfin chi) (dfin alpha) (dfin r0) (dfin s0) (dfin t) (dfin mu)
      = dfin (kepler_equ_uni chi alpha r0 s0 t mu) ∧
    dchi (dfin chi) (dfin alpha) (dfin r0) (dfin s0) = dfin (dchi chi alpha r0 s0) ∧
    generalized_anomaly (dfin alpha) (dfin chi) (dfin s0) (dfin t) (dfin mu)
      = dfin (generalized_anomaly alpha chi s0 t mu) := by
  obtain ⟨u0, u1, u2, u3, -, -⟩ := C64_ufunc chi alpha
  simp only [kepler_equ_uni, dchi, generalized_anomaly, C64_equ_of_orb_uvi, u0, u1, u2, u3, sqrt hm, mul, add, sub, and_self]

/-! ### the root searches -/

/-- The carry with finite traced anomalies. -/
noncomputable def dfinCarry (c : Carry (Dual ℝ)) : Carry (Dual XR) := (c.1, dfin c.2.1, dfin c.2.2)

/-- `solve_kepler_elps`: every tangent along the search is finite. -/
theorem C64_solve_elps (M e tol : Dual ℝ) (he : |e.val| < 1) (n : ℕ) :
    solve_kepler_elps (dfin M) (dfin e) (dfin tol) n = (solve_kepler_elps M e tol n).map dfin := by
  have hd : ∀ E : Dual ℝ, (dE E e).val ≠ 0 := by
    intro E
    have h1 := Real.abs_cos_le_one E.val
    have h2 : |e.val * Real.cos E.val| < 1 := by
      rw [abs_mul]; nlinarith [abs_nonneg e.val, abs_nonneg (Real.cos E.val)]
    have := (abs_lt.1 h2).2
    show ((1 : ℕ) : ℝ) - e.val * Real.cos E.val ≠ 0
    push_cast
    intro h; linarith
  have l2 : ((2 : ℕ) : Dual ℝ).val ≠ 0 := by show ((2 : ℕ) : ℝ) ≠ 0; norm_num
  have hs : elpsStart (dfin M) (dfin e) = dfin (elpsStart M e) := by
    simp only [elpsStart, nat, mul, pow, sin, add, div l2]
  have : elpsRun (dfin M) (dfin e) (dfin tol) n = (elpsRun M e tol n).map dfinCarry := by
    have h := whileLoop_map dfinCarry (fun _ => True) (c1 := elpsCond (dfin tol) n)
      (b1 := elpsBody (dfin M) (dfin e)) (c2 := elpsCond tol n) (b2 := elpsBody M e)
      (fun t _ => by simp only [elpsCond, dfinCarry, sub, XRDual.abs, lt]; rfl) (fun t _ => ?_) (fun _ _ => trivial)
      (0, elpsStart M e, elpsStart M e + ((2 : ℕ) : Dual ℝ) * tol) trivial
    · rw [elpsRun, elpsRun, ← h, hs]
      simp only [dfinCarry, nat, mul, add]
    · simp only [elpsBody, dfinCarry, (C64_kepler_equ _ e M e e).2.1, sin, mul, sub, div (hd _)]
  rw [solve_kepler_elps, solve_kepler_elps, this, Option.map_map, Option.map_map]
  rfl

/-- `solve_kepler_hypb`: every tangent along the search is finite. -/
theorem C64_solve_hypb (N e tol : Dual ℝ) (he : 1 < e.val) (n : ℕ) :
    solve_kepler_hypb (dfin N) (dfin e) (dfin tol) n = (solve_kepler_hypb N e tol n).map dfin := by
  have hd : ∀ H : Dual ℝ, (dH H e).val ≠ 0 := fun H => by
    have := dH_ge (by linarith : 0 ≤ e.val) H.val
    intro h
    change dH H.val e.val = 0 at h
    linarith
  have hs : hypbStart (dfin N) (dfin e) = dfin (hypbStart N e) := by
    have h0 : e.val ≠ 0 := by linarith
    have h1 : 0 < ((((2 : ℕ) : Dual ℝ) * N / e) ^ 2 + ((1 : ℕ) : Dual ℝ)).val := by
      show 0 < (((2 : ℕ) : ℝ) * N.val / e.val) ^ 2 + ((1 : ℕ) : ℝ)
      positivity
    have h2 : 0 < (((2 : ℕ) : Dual ℝ) * N / e + JFun.sqrt ((((2 : ℕ) : Dual ℝ) * N / e) ^ 2 + ((1 : ℕ) : Dual ℝ))).val := by
      show 0 < ((2 : ℕ) : ℝ) * N.val / e.val + Real.sqrt ((((2 : ℕ) : ℝ) * N.val / e.val) ^ 2 + ((1 : ℕ) : ℝ))
      set y := ((2 : ℕ) : ℝ) * N.val / e.val
      have : |y| < Real.sqrt (y ^ 2 + ((1 : ℕ) : ℝ)) := by
        rw [← Real.sqrt_sq_eq_abs]
        exact Real.sqrt_lt_sqrt (sq_nonneg _) (by simp)
      linarith [neg_abs_le y]
    simp only [hypbStart, nat, mul, div h0, pow, add, sqrt h1, log h2]
  have : hypbRun (dfin N) (dfin e) (dfin tol) n = (hypbRun N e tol n).map dfinCarry := by
    have h := whileLoop_map dfinCarry (fun _ => True) (c1 := hypbCond (dfin N) (dfin e) (dfin tol) n)
      (b1 := hypbBody (dfin N) (dfin e)) (c2 := hypbCond N e tol n) (b2 := hypbBody N e)
      (fun t _ => ?_) (fun t _ => ?_) (fun _ _ => trivial)
      (0, hypbStart N e, hypbStart N e + ((2 : ℕ) : Dual ℝ) * tol) trivial
    · rw [hypbRun, hypbRun, ← h, hs]
      simp only [dfinCarry, nat, mul, add]
    · simp only [hypbCond, dfinCarry, (C64_kepler_equ e e e _ N).2.2.1, XRDual.abs, lt]
      rfl
    · simp only [hypbBody, dfinCarry, (C64_kepler_equ e e e _ N).2.2.1, (C64_kepler_equ e e e _ N).2.2.2,
        sub, div (hd _)]
  rw [solve_kepler_hypb, solve_kepler_hypb, this, Option.map_map, Option.map_map]
  rfl

/-- `dchi` on values. -/
theorem dchi_vals (chi alpha r0 s0 : Dual ℝ) : (dchi chi alpha r0 s0).val = dchi chi.val alpha.val r0.val s0.val :=
  (C61_kep_equ chi chi chi chi chi chi chi chi chi alpha r0 s0 s0).2.2.2.2.2.2.2.1

/-- `solve_kepler_uni`: every tangent along the search is finite when the radius vanishes nowhere. -/
theorem C64_solve_uni (t alpha r0 s0 mu tol : Dual ℝ) (hmu : 0 < mu.val)
    (hd : ∀ chi, dchi chi alpha.val r0.val s0.val ≠ 0) (n : ℕ) :
    solve_kepler_uni (dfin t) (dfin alpha) (dfin r0) (dfin s0) (dfin mu) (dfin tol) n
      = (solve_kepler_uni t alpha r0 s0 mu tol n).map dfin := by
  have hd' : ∀ chi : Dual ℝ, (dchi chi alpha r0 s0).val ≠ 0 := fun chi => by
    rw [dchi_vals]; exact hd _
  have hk : ∀ chi, kepler_equ_uni (dfin chi) (dfin alpha) (dfin r0) (dfin s0) (dfin t) (dfin mu)
      = dfin (kepler_equ_uni chi alpha r0 s0 t mu) := fun chi => (C64_kepler_equ_uni hmu).1
  have hk' : ∀ chi, dchi (dfin chi) (dfin alpha) (dfin r0) (dfin s0) = dfin (dchi chi alpha r0 s0) :=
    fun chi => (C64_kepler_equ_uni (t := t) hmu).2.1
  have hi : uniInit (dfin t) (dfin alpha) (dfin mu) (dfin tol) = dfinCarry (uniInit t alpha mu tol) := by
    simp only [uniInit, dfinCarry, uniStart, sqrt hmu, XRDual.abs, mul, nat, add]
  have : uniRun (dfin t) (dfin alpha) (dfin r0) (dfin s0) (dfin mu) (dfin tol) n
      = (uniRun t alpha r0 s0 mu tol n).map dfinCarry := by
    have h := whileLoop_map dfinCarry (fun _ => True)
      (c1 := uniCond (dfin t) (dfin alpha) (dfin r0) (dfin s0) (dfin mu) (dfin tol) n)
      (b1 := uniBody (dfin t) (dfin alpha) (dfin r0) (dfin s0) (dfin mu))
      (c2 := uniCond t alpha r0 s0 mu tol n) (b2 := uniBody t alpha r0 s0 mu)
      (fun t _ => ?_) (fun t _ => ?_) (fun _ _ => trivial) (uniInit t alpha mu tol) trivial
    · rw [uniRun, uniRun, ← h, hi]
    · simp only [uniCond, dfinCarry, hk, XRDual.abs, lt]
      rfl
    · simp only [uniBody, dfinCarry, hk, hk', sub, div (hd' _)]
  rw [solve_kepler_uni, solve_kepler_uni, this, Option.map_map, Option.map_map]
  rfl

/-! ### `_kepler.py` -/

theorem defaultTol_dfin : (defaultTol : Dual XR) = dfin defaultTol := by
  have l : ((1000000 : ℕ) : Dual ℝ).val ≠ 0 := by show ((1000000 : ℕ) : ℝ) ≠ 0; norm_num
  simp only [defaultTol, nat, div l]

theorem chiOf_dfin (t alpha r0 s0 mu : Dual ℝ) (hmu : 0 < mu.val)
    (hd : ∀ chi, dchi chi alpha.val r0.val s0.val ≠ 0) :
    chiOf (dfin t) (dfin alpha) (dfin r0) (dfin s0) (dfin mu) = dfin (chiOf t alpha r0 s0 mu) := by
  have h := C64_solve_uni t alpha r0 s0 mu defaultTol hmu hd 50
  rw [← defaultTol_dfin, solve_eq_chiOf, solve_eq_chiOf, Option.map_some] at h
  exact Option.some.inj h

theorem C64_keplerStep {r0 : Dual ℝ} (hm : 0 < mu.val) (hr0 : r0.val ≠ 0) (hd : dchi chi.val alpha.val r0.val s0.val ≠ 0) :
    keplerStep (dfin chi) (dfin alpha) (dfin r0) (dfin s0) (dvec rv) (dvec vv) (dfin mu)
      = (dvec (keplerStep chi alpha r0 s0 rv vv mu).1, dvec (keplerStep chi alpha r0 s0 rv vv mu).2) := by
  obtain ⟨u0, u1, u2, -, -, -⟩ := C64_ufunc chi alpha
  have hrad : (equ_of_orb_uvi (ufunc0 chi alpha) (ufunc1 chi alpha) (ufunc2 chi alpha) r0 s0).val ≠ 0 := by
    have := dchi_vals chi alpha r0 s0
    rw [dchi] at this
    rw [this]; exact hd
  obtain ⟨l1, l2, l3, l4⟩ := C64_lagrange (U1 := ufunc1 chi alpha) (U2 := ufunc2 chi alpha) (s0 := s0) hrad hr0 hm
  simp only [keplerStep, u0, u1, u2, C64_equ_of_orb_uvi, l1, l2, l3, l4, lagrange_prop, vsmul, vadd]

theorem row_dfin {a a' r0 : Dual ℝ} {aX : Dual XR} (hmu : 0 < mu.val) (hr0 : r0.val ≠ 0)
    (haX : ∀ chi, keplerStep chi aX (dfin r0) (dfin s0) (dvec rv) (dvec vv) (dfin mu)
      = keplerStep chi (dfin a) (dfin r0) (dfin s0) (dvec rv) (dvec vv) (dfin mu))
    (hi : JFun.item aX = dfin a') (hd' : ∀ chi, dchi chi a'.val r0.val s0.val ≠ 0) (hd : ∀ chi, dchi chi a.val r0.val s0.val ≠ 0) :
    keplerStep (chiOf (dfin t) (JFun.item aX) (JFun.item (dfin r0)) (JFun.item (dfin s0)) (dfin mu)) aX (dfin r0) (dfin s0)
        (dvec rv) (dvec vv) (dfin mu)
      = (dvec (keplerStep (chiOf t a' (JFun.item r0) (JFun.item s0) mu) a r0 s0 rv vv mu).1,
         dvec (keplerStep (chiOf t a' (JFun.item r0) (JFun.item s0) mu) a r0 s0 rv vv mu).2) := by
  rw [haX, hi, show JFun.item (dfin r0) = dfin (JFun.item r0) from rfl, show JFun.item (dfin s0) = dfin (JFun.item s0) from rfl,
    chiOf_dfin _ _ (JFun.item r0) (JFun.item s0) _ hmu hd', C64_keplerStep hmu hr0 (hd _)]

/-- On a parabola the three universal functions the step uses do not contain `alpha`. -/
theorem keplerStep_par {chi a b r0 s0 mu : Dual XR} {rv vv : V3 (Dual XR)} (ha : a.val = fin 0) (hb : b.val = fin 0) :
    keplerStep chi a r0 s0 rv vv mu = keplerStep chi b r0 s0 rv vv mu := by
  have c : ∀ x : Dual XR, x.val = fin 0 → JFun.lt ((0 : ℕ) : Dual XR) x = false ∧ JFun.lt x ((0 : ℕ) : Dual XR) = false := by
    intro x hx
    constructor
    · show JFun.lt ((0 : ℕ) : XR) x.val = false
      rw [hx]; exact decide_eq_false (by simp)
    · show JFun.lt x.val ((0 : ℕ) : XR) = false
      rw [hx]; exact decide_eq_false (by simp)
  simp only [keplerStep, ufunc0, ufunc1, ufunc2, (c a ha).1, (c a ha).2, (c b hb).1, (c b hb).2, if_false, Bool.false_eq_true]

theorem dchi_ne (r v : V3 ℝ) {mu : ℝ} (hmu : 0 < mu) (hh : angular_momentum r v ≠ ⟨0, 0, 0⟩) (chi : ℝ) :
    dchi chi (alphaOf r v mu) (V3.norm r) (sigma_fn r v mu) ≠ 0 := by
  intro h
  obtain ⟨m, hm, hb⟩ := C12_derivative hmu hh 0
  have := (hb chi).2
  change m ≤ dchi chi (alphaOf r v mu) (V3.norm r) (sigma_fn r v mu) at this
  linarith

theorem ne_of_ang {r v : V3 ℝ} (hh : angular_momentum r v ≠ ⟨0, 0, 0⟩) : r ≠ ⟨0, 0, 0⟩ ∧ v ≠ ⟨0, 0, 0⟩ := by
  constructor <;> rintro rfl <;> apply hh <;> simp [angular_momentum, V3.cross]

/-- The traced `alpha` of the code. -/
noncomputable def dalpha (rv vv : V3 (Dual ℝ)) (mu : Dual ℝ) : Dual ℝ :=
  ((1 : ℕ) : Dual ℝ) / semimajor_axis (V3.norm rv) (V3.norm vv) mu

theorem dalpha_val : (dalpha rv vv mu).val = alphaOf rv.vals vv.vals mu.val := by
  rw [← alphaOf_real]; rfl

/-- `alpha` has a finite tangent off the parabolas. -/
theorem C64_alpha (hmu : 0 < mu.val) (hr : rv.vals ≠ ⟨0, 0, 0⟩) (hv : vv.vals ≠ ⟨0, 0, 0⟩)
    (ha : alphaOf rv.vals vv.vals mu.val ≠ 0) :
    ((1 : ℕ) : Dual XR) / semimajor_axis (V3.norm (dvec rv)) (V3.norm (dvec vv)) (dfin mu) = dfin (dalpha rv vv mu) := by
  have hp : 2 / (V3.norm rv).val - (V3.norm vv).val ^ 2 / mu.val ≠ 0 := by
    rw [norm_vals, norm_vals]
    simpa [alphaOf, semimajor_axis] using ha
  have hsm : (semimajor_axis (V3.norm rv) (V3.norm vv) mu).val ≠ 0 := by
    show ((1 : ℕ) : ℝ) / (((2 : ℕ) : ℝ) / (V3.norm rv).val - (V3.norm vv).val ^ 2 / mu.val) ≠ 0
    exact div_ne_zero (by norm_num) (by simpa using hp)
  rw [C64_norm hr, C64_norm hv, C64_semimajor_axis (norm_val_pos hr).ne' hmu.ne' hp, nat, div hsm]
  rfl

theorem sigma_vals : (sigma_fn rv vv mu).val = sigma_fn rv.vals vv.vals mu.val := rfl

/-- C64: differentiating `kepler` with respect to the times, the initial state and `mu` gives finite tangents, the
exact-arithmetic ones, for every state that is not rectilinear. On a parabola the tangent of `alpha` is NaN
(`C64_alpha_refuted`), but `.item()` keeps it out of the root search and the universal functions at `alpha = 0` do
not contain `alpha`, so it is lost. (What the finite tangents are worth is the subject of C66.) -/
theorem C64_kepler (ts : List (Dual ℝ)) (hmu : 0 < mu.val) (hh : angular_momentum rv.vals vv.vals ≠ ⟨0, 0, 0⟩) :
    kepler (ts.map dfin) (dvec rv) (dvec vv) (dfin mu)
      = (kepler ts rv vv mu).map (fun o => (o.1.map dvec, o.2.map dvec)) := by
  obtain ⟨hr, hv⟩ := ne_of_ang hh
  have hr0 := norm_val_pos hr
  have hd : ∀ chi, dchi chi (dalpha rv vv mu).val (V3.norm rv).val (sigma_fn rv vv mu).val ≠ 0 := fun chi => by
    rw [dalpha_val, norm_vals, sigma_vals]; exact dchi_ne _ _ hmu hh chi
  set aX := ((1 : ℕ) : Dual XR) / semimajor_axis (V3.norm (dvec rv)) (V3.norm (dvec vv)) (dfin mu) with haX
  have hval : aX.val = fin (dalpha rv vv mu).val := by
    have h1 : aX.val = ((1 : ℕ) : XR) / semimajor_axis (V3.norm (dvec rv)).val (V3.norm (dvec vv)).val (fin mu.val) := rfl
    rw [h1, C64_norm hr, C64_norm hv]
    show ((1 : ℕ) : XR) / semimajor_axis (fin (V3.norm rv).val) (fin (V3.norm vv).val) (fin mu.val) = _
    rw [C48_alpha _ _ _ hmu.ne' hr0.ne', dalpha_val, norm_vals, norm_vals]
    simp [alphaOf, semimajor_axis]
  have hitem : JFun.item aX = dfin (JFun.item (dalpha rv vv mu)) := Dual.ext hval rfl
  have hstep : ∀ chi, keplerStep chi aX (dfin (V3.norm rv)) (dfin (sigma_fn rv vv mu)) (dvec rv) (dvec vv) (dfin mu)
      = keplerStep chi (dfin (dalpha rv vv mu)) (dfin (V3.norm rv)) (dfin (sigma_fn rv vv mu)) (dvec rv) (dvec vv) (dfin mu) := by
    intro chi
    by_cases ha : alphaOf rv.vals vv.vals mu.val = 0
    · have h0 : (dalpha rv vv mu).val = 0 := dalpha_val.trans ha
      exact keplerStep_par (by rw [hval, h0]) (congrArg fin h0)
    · rw [haX, C64_alpha hmu hr hv ha]
  have hrow : ∀ t, keplerRow (dvec rv) (dvec vv) (dfin mu) (dfin t)
      = (dvec (keplerRow rv vv mu t).1, dvec (keplerRow rv vv mu t).2) := by
    intro t
    have h2 := row_dfin (t := t) (rv := rv) (vv := vv) hmu hr0.ne' hstep hitem hd hd
    unfold keplerRow
    simp only []
    rw [← haX, C64_norm hr, C64_sigma_fn hmu, h2, dalpha]
  rw [kepler_eq_map, kepler_eq_map]
  simp only [List.map_map, Option.map_some, Function.comp_def, hrow]

end Adx
