import Verif.Spec.Documented
import Verif.Lemmas.Angle
import Verif.Lemmas.RealVec
import Verif.Model.OrbElements
import Verif.Model.Gravity
import Verif.Model.PathCheck
import Verif.Model.StateTrans
import Verif.Model.Kepler
import Verif.Lemmas.Collide

/-! # C84: the formulas displayed in the docstrings

`Spec.Doc` holds the displayed formulas; here each is compared with what the code computes, in exact arithmetic and for all
arguments. Where they differ the theorem says exactly when they agree. -/

namespace Adx
open Spec Matrix

/-- A `(3,)` array as a vector of the documentation. -/
def V3.doc (a : V3 ℝ) : Doc.Vec := ![a.x, a.y, a.z]

/-- A `(3, 3)` array as a matrix of the documentation. -/
def M3.doc (m : M3 ℝ) : Matrix (Fin 3) (Fin 3) ℝ :=
  !![m.r0.x, m.r0.y, m.r0.z; m.r1.x, m.r1.y, m.r1.z; m.r2.x, m.r2.y, m.r2.z]

theorem len_doc (a : V3 ℝ) : Doc.len a.doc = V3.norm a := by
  simp [Doc.len, V3.doc, V3.norm, V3.dot, dotProduct, Fin.sum_univ_three]

theorem dot_doc (a b : V3 ℝ) : a.doc ⬝ᵥ b.doc = V3.dot a b := by
  simp [V3.doc, V3.dot, dotProduct, Fin.sum_univ_three]

theorem cross_doc (a b : V3 ℝ) : a.doc ⨯₃ b.doc = (V3.cross a b).doc := by
  simp [V3.doc, V3.cross, crossProduct]

theorem sub_doc (a b : V3 ℝ) : a.doc - b.doc = (a - b).doc := by
  ext i; fin_cases i <;> simp [V3.doc]

theorem add_doc (a b : V3 ℝ) : a.doc + b.doc = (a + b).doc := by
  ext i; fin_cases i <;> simp [V3.doc]

theorem smul_doc (k : ℝ) (a : V3 ℝ) : k • a.doc = (k • a).doc := by
  ext i; fin_cases i <;> simp [V3.doc]

theorem doc_inj {a b : V3 ℝ} (h : a.doc = b.doc) : a = b := by
  have h0 := congrFun h 0
  have h1 := congrFun h 1
  have h2 := congrFun h 2
  simp only [V3.doc] at h0 h1 h2
  ext
  · simpa using h0
  · simpa using h1
  · simpa using h2

theorem mat_inj {a b : M3 ℝ} (h : a.doc = b.doc) : a = b := by
  have e := fun i j => congrFun (congrFun h i) j
  ext
  · simpa [M3.doc] using e 0 0
  · simpa [M3.doc] using e 0 1
  · simpa [M3.doc] using e 0 2
  · simpa [M3.doc] using e 1 0
  · simpa [M3.doc] using e 1 1
  · simpa [M3.doc] using e 1 2
  · simpa [M3.doc] using e 2 0
  · simpa [M3.doc] using e 2 1
  · simpa [M3.doc] using e 2 2

theorem atan2_doc (y x : ℝ) : Doc.atan2 y x = Complex.arg ⟨x, y⟩ := by
  rw [Doc.atan2]; congr 1; apply Complex.ext <;> simp

/-! ## Orbital integrals -/

/-- C84: the displayed formulas of `_orb_integrals.py`, all but that of `a_from_period`. -/
theorem C84_orb_integrals_partial :
    (∀ a mu : ℝ, orb_period a mu = Doc.orb_period a mu) ∧
    (∀ r v : V3 ℝ, (angular_momentum r v).doc = Doc.angular_momentum r.doc v.doc) ∧
    (∀ r v mu : ℝ, semimajor_axis r v mu = Doc.semimajor_axis r v mu) ∧
    (∀ (r v : V3 ℝ) (mu : ℝ), (eccentricity_vector r v mu).doc = Doc.eccentricity_vector r.doc v.doc mu) ∧
    (∀ h mu : ℝ, semiparameter h mu = Doc.semiparameter h mu) ∧
    (∀ P : ℝ, mean_motion P = Doc.mean_motion P) ∧
    (∀ p e f : ℝ, equ_of_orbit p e f = Doc.equ_of_orbit p e f) ∧
    (∀ U0 U1 U2 r0 s0 : ℝ, equ_of_orb_uvi U0 U1 U2 r0 s0 = Doc.equ_of_orb_uvi U0 U1 U2 r0 s0) ∧
    (∀ p e : ℝ, radius_periapsis p e = Doc.radius_periapsis p e) ∧
    (∀ p e : ℝ, radius_apoapsis p e = Doc.radius_apoapsis p e) ∧
    (∀ a e : ℝ, semipara_from_ae a e = Doc.semipara_from_ae a e) ∧
    (∀ p e : ℝ, a_from_pe p e = Doc.a_from_pe p e) := by
  refine ⟨fun a mu => ?_, fun r v => ?_, fun r v mu => ?_, fun r v mu => ?_, fun h mu => ?_, fun P => ?_,
    fun p e f => ?_, fun U0 U1 U2 r0 s0 => ?_, fun p e => ?_, fun p e => ?_, fun a e => ?_, fun p e => ?_⟩
  · simp [orb_period, Doc.orb_period]
  · rw [Doc.angular_momentum, cross_doc]; rfl
  · simp [semimajor_axis, Doc.semimajor_axis]
  · rw [Doc.eccentricity_vector, Doc.angular_momentum, cross_doc, cross_doc, len_doc, smul_doc, smul_doc, sub_doc]
    congr 1
    ext <;> simp [eccentricity_vector, angular_momentum] <;> ring
  · simp [semiparameter, Doc.semiparameter]
  · simp [mean_motion, Doc.mean_motion]
  · simp [equ_of_orbit, Doc.equ_of_orbit]
  · simp only [equ_of_orb_uvi, Doc.equ_of_orb_uvi]
  · simp [radius_periapsis, Doc.radius_periapsis]
  · simp [radius_apoapsis, Doc.radius_apoapsis]
  · simp [semipara_from_ae, Doc.semipara_from_ae]
  · simp [a_from_pe, Doc.a_from_pe]

/-- C84: `a_from_period` takes a cube root where the docstring displays a square root; the two agree only when the semimajor
axis is 0 or 1. -/
theorem C84_a_from_period_iff {P mu : ℝ} (hmu : 0 ≤ mu) :
    a_from_period P mu = Doc.a_from_period P mu ↔ a_from_period P mu = 0 ∨ a_from_period P mu = 1 := by
  set x := P ^ 2 * mu / (4 * Real.pi ^ 2) with hx
  have hx0 : 0 ≤ x := by positivity
  have e1 : a_from_period P mu = realCbrt x := by
    rw [hx, ← div_div]; simp [a_from_period]
  have e2 : Doc.a_from_period P mu = √x := rfl
  rw [e1, e2]
  set c := realCbrt x with hc
  have c0 : 0 ≤ c := realCbrt_nonneg hx0
  have c3 : c ^ 3 = x := realCbrt_pow_three x
  constructor
  · intro h
    have : c ^ 2 = x := by rw [h, Real.sq_sqrt hx0]
    have h0 : c ^ 2 * (c - 1) = 0 := by rw [mul_sub, this, mul_one, ← this]; nlinarith [c3]
    rcases mul_eq_zero.1 h0 with h | h
    · exact Or.inl (pow_eq_zero_iff two_ne_zero |>.1 h)
    · exact Or.inr (by linarith)
  · rintro (h | h)
    · rw [h] at c3 ⊢; rw [← c3]; simp
    · rw [h] at c3 ⊢; rw [← c3]; simp

/-- C84: the displayed formula of `a_from_period` is wrong. -/
theorem C84_a_from_period_refuted : ¬ ∀ P mu : ℝ, 0 < P → 0 < mu → a_from_period P mu = Doc.a_from_period P mu := by
  intro h
  have hpi := Real.pi_pos
  have h1 := (C84_a_from_period_iff (P := 2 * Real.pi) (mu := 8) (by norm_num)).1 (h _ _ (by positivity) (by norm_num))
  have e : a_from_period (2 * Real.pi) (8 : ℝ) = 2 := by
    have : (2 * Real.pi) ^ 2 * 8 / 4 / Real.pi ^ 2 = 2 ^ 3 := by field_simp; norm_num
    simp only [a_from_period, Nat.cast_ofNat, pi_real, cbrt_real]
    rw [this, realCbrt_of_pow_three (by norm_num)]
  rw [e] at h1
  norm_num at h1

/-! ## Universal functions, Lagrange coefficients, Kepler's equations -/

/-- C84: the displayed formulas of `_uniformulas.py`. -/
theorem C84_uniformulas :
    (∀ (r v : V3 ℝ) (mu : ℝ), sigma_fn r v mu = Doc.sigma r.doc v.doc mu) ∧
    ∀ chi alpha : ℝ, ufunc0 chi alpha = Doc.U0 chi alpha ∧ ufunc1 chi alpha = Doc.U1 chi alpha ∧
      ufunc2 chi alpha = Doc.U2 chi alpha ∧ ufunc3 chi alpha = Doc.U3 chi alpha ∧
      ufunc4 chi alpha = Doc.U4 chi alpha ∧ ufunc5 chi alpha = Doc.U5 chi alpha := by
  refine ⟨fun r v mu => by rw [Doc.sigma, dot_doc]; rfl, fun χ α => ?_⟩
  rcases lt_trichotomy α 0 with h | h | h
  · have h' : ¬ 0 < α := not_lt.2 h.le
    refine ⟨?_, ?_, ?_, ?_, ?_, ?_⟩ <;>
      simp [ufunc0, ufunc1, ufunc2, ufunc3, ufunc4, ufunc5, Doc.U0, Doc.U1, Doc.U2, Doc.U3, Doc.U4, Doc.U5, h, h', h.ne, div_div]
  · subst h
    refine ⟨?_, ?_, ?_, ?_, ?_, ?_⟩ <;>
      simp [ufunc0, ufunc1, ufunc2, ufunc3, ufunc4, ufunc5, Doc.U0, Doc.U1, Doc.U2, Doc.U3, Doc.U4, Doc.U5]
  · refine ⟨?_, ?_, ?_, ?_, ?_, ?_⟩ <;>
      simp [ufunc0, ufunc1, ufunc2, ufunc3, ufunc4, ufunc5, Doc.U0, Doc.U1, Doc.U2, Doc.U3, Doc.U4, Doc.U5, h, h.ne', div_div]

/-- C84: the displayed formulas of `_lagrange.py` and `_kep_equ.py`. -/
theorem C84_kepler_equations :
    (∀ U2 r0 : ℝ, lagrange_F U2 r0 = Doc.F U2 r0) ∧
    (∀ U1 U2 s0 r0 mu : ℝ, lagrange_G U1 U2 s0 r0 mu = Doc.G U1 U2 s0 r0 mu) ∧
    (∀ U1 r r0 mu : ℝ, lagrange_Ft U1 r r0 mu = Doc.Ft U1 r r0 mu) ∧
    (∀ U2 r : ℝ, lagrange_Gt U2 r = Doc.Gt U2 r) ∧
    (∀ E e M : ℝ, kepler_equ_elps E e M = Doc.kepler_equ_elps E e M) ∧ (∀ E e : ℝ, dE E e = Doc.dE E e) ∧
    (∀ H e N : ℝ, kepler_equ_hypb H e N = Doc.kepler_equ_hypb H e N) ∧ (∀ H e : ℝ, dH H e = Doc.dH H e) ∧
    (∀ a t mu : ℝ, mean_anomaly_elps a t mu = Doc.mean_anomaly_elps a t mu) ∧
    (∀ a t mu : ℝ, mean_anomaly_hypb a t mu = Doc.mean_anomaly_hypb a t mu) ∧
    (∀ chi alpha r0 s0 t mu : ℝ, kepler_equ_uni chi alpha r0 s0 t mu = Doc.kepler_equ_uni chi alpha r0 s0 t mu) ∧
    ∀ alpha s s0 t mu : ℝ, generalized_anomaly alpha s s0 t mu = Doc.generalized_anomaly alpha s s0 t mu := by
  refine ⟨fun _ _ => ?_, fun _ _ _ _ _ => ?_, fun _ _ _ _ => ?_, fun _ _ => ?_, fun _ _ _ => ?_, fun _ _ => ?_,
    fun _ _ _ => ?_, fun _ _ => ?_, fun _ _ _ => ?_, fun _ _ _ => ?_, fun χ α _ _ _ _ => ?_, fun _ _ _ _ _ => ?_⟩
  · simp [lagrange_F, Doc.F]
  · simp [lagrange_G, Doc.G]
  · simp only [lagrange_Ft, Doc.Ft, sqrt_real]; ring
  · simp [lagrange_Gt, Doc.Gt]
  · simp [kepler_equ_elps, Doc.kepler_equ_elps]
  · simp [dE, Doc.dE]
  · simp [kepler_equ_hypb, Doc.kepler_equ_hypb]
  · simp [dH, Doc.dH]
  · simp [mean_anomaly_elps, Doc.mean_anomaly_elps]
  · simp [mean_anomaly_hypb, Doc.mean_anomaly_hypb]
  · obtain ⟨-, h1, h2, h3, -, -⟩ := C84_uniformulas.2 χ α
    simp [kepler_equ_uni, Doc.kepler_equ_uni, h1, h2, h3]
  · simp [generalized_anomaly, Doc.generalized_anomaly]

/-! ## Elements -/

/-- C84: the displayed formulas of the elements; the wrapping of `jnp.where` is not displayed and does nothing, except for the
right ascension. -/
theorem C84_elements_partial :
    (∀ h : V3 ℝ, inclination h = Doc.inclination h.doc) ∧
    (∀ r e : V3 ℝ, true_anomaly r e = Doc.true_anomaly r.doc e.doc) ∧
    (∀ h : V3 ℝ, (node_vec h).doc = Doc.node h.doc) ∧
    (∀ N e : V3 ℝ, argument_of_periapsis N e = Doc.argument_of_periapsis N.doc e.doc) := by
  have key : ∀ n x : ℝ, 0 ≤ n → wrapNeg (Complex.arg ⟨x, n⟩) = Complex.arg ⟨x, n⟩ := fun n x h =>
    wrapNeg_of_nonneg (Complex.arg_nonneg_iff.2 h)
  refine ⟨fun h => ?_, fun r e => ?_, fun h => ?_, fun N e => ?_⟩
  · rw [Doc.inclination, len_doc]; simp [inclination, V3.doc]
  · rw [Doc.true_anomaly, cross_doc, len_doc, dot_doc, atan2_doc]
    exact key _ _ (V3.norm_nonneg _)
  · have : (![0, 0, 1] : Doc.Vec) = (⟨0, 0, 1⟩ : V3 ℝ).doc := rfl
    rw [Doc.node, this, cross_doc]; simp [node_vec]
  · rw [Doc.argument_of_periapsis, cross_doc, len_doc, dot_doc, atan2_doc]
    exact key _ _ (V3.norm_nonneg _)

/-- C84: `right_ascension` is the displayed angle or that angle plus `2π`; it is the displayed one exactly when the node is not
on the negative side of the second axis. -/
theorem C84_right_ascension (N : V3 ℝ) :
    (0 ≤ N.y → right_ascension N = Doc.right_ascension N.doc) ∧
    (N.y < 0 → right_ascension N = 2 * Real.pi + Doc.right_ascension N.doc) := by
  have e : Doc.right_ascension N.doc = Complex.arg ⟨N.x, N.y⟩ := by rw [Doc.right_ascension, atan2_doc]; rfl
  rw [e]
  exact ⟨fun h => wrapNeg_of_nonneg (Complex.arg_nonneg_iff.2 h), fun h => wrapNeg_of_neg (Complex.arg_neg_iff.2 h)⟩

theorem C84_right_ascension_refuted : ¬ ∀ N : V3 ℝ, N ≠ ⟨0, 0, 0⟩ → right_ascension N = Doc.right_ascension N.doc := by
  intro h
  have h1 := h ⟨0, -1, 0⟩ (fun h => by simpa using congrArg V3.y h)
  rw [(C84_right_ascension _).2 (by norm_num)] at h1
  linarith [Real.pi_pos]

/-- C84: `rv2coe` evaluates the displayed chain of equations; the node only up to a full turn. -/
theorem C84_rv2coe (r v : V3 ℝ) (mu : ℝ) :
    let h := Doc.angular_momentum r.doc v.doc
    let e := Doc.eccentricity_vector r.doc v.doc mu
    let c := rv2coe r v mu
    c.p = Doc.semiparameter (Doc.len h) mu ∧ c.e = Doc.len e ∧ c.incl = Doc.inclination h ∧
    (0 ≤ Doc.node h 1 → c.raan = Doc.right_ascension (Doc.node h)) ∧
    (Doc.node h 1 < 0 → c.raan = 2 * Real.pi + Doc.right_ascension (Doc.node h)) ∧
    c.argp = Doc.argument_of_periapsis (Doc.node h) e ∧ c.true_anom = Doc.true_anomaly r.doc e := by
  obtain ⟨-, oh, -, oe, op, -⟩ := C84_orb_integrals_partial
  obtain ⟨ei, ef, en, ew⟩ := C84_elements_partial
  intro h e c
  simp only [h, e, c, ← oh, ← oe, ← en, len_doc, ← op, ← ei, ← ew, ← ef]
  exact ⟨rfl, rfl, rfl, (C84_right_ascension _).1, (C84_right_ascension _).2, rfl, rfl⟩

/-- C84: the displayed rotation matrices. -/
theorem C84_rotations (θ : ℝ) :
    (rotmat3dx θ).doc = Doc.Rx θ ∧ (rotmat3dy θ).doc = Doc.Ry θ ∧ (rotmat3dz θ).doc = Doc.Rz θ := by
  refine ⟨?_, ?_, ?_⟩ <;> ext i j <;> fin_cases i <;> fin_cases j <;>
    simp [M3.doc, rotmat3dx, rotmat3dy, rotmat3dz, Doc.Rx, Doc.Ry, Doc.Rz]

theorem mul_doc (a b : M3 ℝ) : (M3.mul a b).doc = a.doc * b.doc := by
  ext i j
  fin_cases i <;> fin_cases j <;> simp [M3.doc, M3.mul, M3.transpose, V3.dot, Matrix.mul_apply, Fin.sum_univ_three]

theorem mulVec_doc (a : M3 ℝ) (b : V3 ℝ) : (M3.mulVec a b).doc = a.doc *ᵥ b.doc := by
  ext i
  fin_cases i <;> simp [M3.doc, V3.doc, M3.mulVec, V3.dot, Matrix.mulVec, dotProduct, Fin.sum_univ_three]

/-- C84: with the rotation matrices of the library the displayed formula of `coe2rv` turns the wrong way: it is the state of the
elements with the three angles negated. -/
theorem C84_coe2rv_partial (p e i Ω ω f mu : ℝ) :
    Doc.coe2rv p e i Ω ω f mu
      = ((coe2rv p e (-i) (-Ω) (-ω) f mu).1.doc, (coe2rv p e (-i) (-Ω) (-ω) f mu).2.doc) := by
  have hr : (perifocalPos p e f).doc = Doc.r_pf p e f := by
    ext k; fin_cases k <;> simp [perifocalPos, Doc.r_pf, V3.doc]
  have hv : (perifocalVel p e f mu).doc = Doc.v_pf p e f mu := by
    ext k; fin_cases k <;> simp [perifocalVel, Doc.v_pf, V3.doc]
  simp only [coe2rv, mulVec_doc, perifocalToInertial, mul_doc, hr, hv, (C84_rotations _).1, (C84_rotations _).2.2]
  rfl

/-- C84: so the displayed formula is wrong: an equatorial orbit with the node at 90°. -/
theorem C84_coe2rv_refuted : ¬ ∀ p e i Ω ω f mu : ℝ, 0 < p → 0 ≤ e → 0 < 1 + e * Real.cos f → 0 < mu →
    Doc.coe2rv p e i Ω ω f mu = ((coe2rv p e i Ω ω f mu).1.doc, (coe2rv p e i Ω ω f mu).2.doc) := by
  intro h
  have h1 := h 1 0 0 (Real.pi / 2) 0 0 1 one_pos le_rfl (by simp) one_pos
  rw [C84_coe2rv_partial] at h1
  have h2 := congrFun (congrArg Prod.fst h1) 1
  simp [coe2rv, V3.doc, M3.mulVec, perifocalToInertial, M3.mul, M3.transpose, rotmat3dz, rotmat3dx, perifocalPos, V3.dot] at h2
  norm_num at h2

/-! ## Accelerations -/

/-- C84: the displayed accelerations and the displayed event function. -/
theorem C84_gravity (t : ℝ) (x : State ℝ) (args : Args ℝ) {mu J R rmin : ℝ} (hmu : args "mu" = some mu) (hR : args "R_eq" = some R) :
    (∃ a, point_mass_grav t x args = .ok a ∧ a.doc = Doc.point_mass x.pos.doc mu) ∧
    (args "J2" = some J → ∃ a, j2_acc t x args = .ok a ∧ a.doc = Doc.j2 x.pos.doc mu J R) ∧
    (args "J3" = some J → ∃ a, j3_acc t x args = .ok a ∧ a.doc = Doc.j3 x.pos.doc mu J R) ∧
    (args "J4" = some J → ∃ a, j4_acc t x args = .ok a ∧ a.doc = Doc.j4 x.pos.doc mu J R) ∧
    (args "rmin" = some rmin → radius_islow t x args = .ok (Doc.radius_islow x.pos.doc rmin)) := by
  have key : ∀ {k : String} {v : ℝ}, args k = some v → args.get k = .ok v := fun h => by simp [Args.get, h]
  have hz : x.pos.doc 2 = x.pos.z := rfl
  refine ⟨?_, fun hJ => ?_, fun hJ => ?_, fun hJ => ?_, fun hr => ?_⟩
  · rw [point_mass_grav, key hmu]
    refine ⟨_, rfl, ?_⟩
    rw [Doc.point_mass, len_doc, smul_doc]
    rfl
  · rw [j2_acc, key hmu, key hJ, key hR]
    refine ⟨_, rfl, ?_⟩
    simp only [Doc.j2, len_doc, hz]
    ext k; fin_cases k <;> simp [V3.doc] <;> ring
  · rw [j3_acc, key hmu, key hJ, key hR]
    refine ⟨_, rfl, ?_⟩
    simp only [Doc.j3, len_doc, hz]
    ext k; fin_cases k <;> simp [V3.doc] <;> ring
  · rw [j4_acc, key hmu, key hJ, key hR]
    refine ⟨_, rfl, ?_⟩
    simp only [Doc.j4, len_doc, hz]
    ext k; fin_cases k <;> simp [V3.doc] <;> ring
  · rw [radius_islow, key hr, Doc.radius_islow, len_doc]; rfl

/-! ## Path checks -/

/-- C84: the displayed conditions of `_path_check.py`. -/
theorem C84_path_check :
    (∀ rp r1 r2 T mu : ℝ, nmax_by_periapsis rp r1 r2 T mu = Doc.nmax rp r1 r2 T mu) ∧
    (∀ r1 v1 r2 : V3 ℝ, is_short_way r1 v1 r2 = true ↔ Doc.short_way r1.doc v1.doc r2.doc) ∧
    (∀ (r1 v1 r2 : V3 ℝ) (mu : ℝ), pass_perigee r1 v1 r2 mu = true ↔ Doc.pass_perigee r1.doc v1.doc r2.doc mu) := by
  have hs : ∀ r1 v1 r2 : V3 ℝ, is_short_way r1 v1 r2 = true ↔ Doc.short_way r1.doc v1.doc r2.doc := fun r1 v1 r2 => by
    rw [Doc.short_way, cross_doc, cross_doc, dot_doc]; simp [is_short_way]
  refine ⟨fun rp r1 r2 T mu => ?_, hs, fun r1 v1 r2 mu => ?_⟩
  · simp [nmax_by_periapsis, Doc.nmax]
  · rw [Doc.pass_perigee, ← hs, ← C84_orb_integrals_partial.2.2.2.1, cross_doc, cross_doc, cross_doc, dot_doc, dot_doc]
    simp only [pass_perigee, beq_iff_eq, lt_real, Nat.cast_zero]
    rw [← Bool.coe_iff_coe]
    simp

/-! ## Propagation and transition matrices -/

theorem op_doc (a b : V3 ℝ) : Doc.op a.doc b.doc = (M3.outer a b).doc := by
  ext i j; fin_cases i <;> fin_cases j <;> simp [Doc.op, V3.doc, M3.doc, M3.outer, vecMulVec]

/-- C84: the displayed formulas of `_kepler.py`, of `C_func` and of the position blocks. -/
theorem C84_state_trans_partial (r v r0 v0 : V3 ℝ) :
    (∀ F G Ft Gt : ℝ, ((lagrange_prop F G Ft Gt r0 v0).1.doc, (lagrange_prop F G Ft Gt r0 v0).2.doc)
      = Doc.lagrange_prop r0.doc v0.doc F G Ft Gt) ∧
    (∀ chi U2 U4 U5 t mu : ℝ, C_func chi U2 U4 U5 t mu = Doc.C chi U2 U4 U5 t mu) ∧
    (∀ F C mu : ℝ, (prpr0 r v r0 v0 F C mu).doc = Doc.prpr0 r.doc v.doc r0.doc v0.doc F C mu) ∧
    (∀ F G C mu : ℝ, (prpv0 r v r0 v0 F G C mu).doc = Doc.prpv0 r.doc v.doc r0.doc v0.doc F G C mu) := by
  refine ⟨fun F G Ft Gt => ?_, fun χ U2 U4 U5 t mu => ?_, fun F C mu => ?_, fun F G C mu => ?_⟩
  · rw [Doc.lagrange_prop, smul_doc, smul_doc, smul_doc, smul_doc, add_doc, add_doc]; rfl
  · simp [C_func, Doc.C]
  · rw [Doc.prpr0, sub_doc, len_doc, len_doc, op_doc, op_doc, op_doc]
    ext i j
    fin_cases i <;> fin_cases j <;> simp [prpr0, M3.doc, M3.outer, M3.eye] <;> ring
  · rw [Doc.prpv0, sub_doc, sub_doc, len_doc, op_doc, op_doc, op_doc]
    ext i j
    fin_cases i <;> fin_cases j <;> simp [prpv0, M3.doc, M3.outer, M3.eye]

/-- C84: `pvpr0` is the displayed matrix with `r³ r₀³` in place of `r² r₀²` in the last term. -/
theorem C84_pvpr0_difference (r v r0 v0 : V3 ℝ) (Ft C mu : ℝ) :
    (pvpr0 r v r0 v0 Ft C mu).doc = Doc.pvpr0 r.doc v.doc r0.doc v0.doc Ft C mu
      + (mu * C / (V3.norm r ^ 2 * V3.norm r0 ^ 2) - mu * C / (V3.norm r ^ 3 * V3.norm r0 ^ 3)) • Doc.op r.doc r0.doc := by
  rw [Doc.pvpr0, sub_doc, len_doc, len_doc, op_doc, op_doc, op_doc, op_doc, op_doc, op_doc]
  ext i j
  fin_cases i <;> fin_cases j <;>
    simp [pvpr0, M3.doc, M3.outer, M3.eye, M3.mul, M3.transpose, V3.dot, V3.doc, Doc.op, vecMulVec, Matrix.mulVec, dotProduct,
      Fin.sum_univ_three] <;> ring

/-- C84: `pvpv0` is the displayed matrix with `r³` in place of `r₀³`. -/
theorem C84_pvpv0_difference (r v r0 v0 : V3 ℝ) (F Gt C mu : ℝ) :
    (pvpv0 r v r0 v0 F Gt C mu).doc = Doc.pvpv0 r.doc v.doc r0.doc v0.doc F Gt C mu
      + (1 / V3.norm r ^ 3 - 1 / V3.norm r0 ^ 3) • Doc.op r.doc ((V3.norm r0 * (1 - F)) • r0 - C • v0).doc := by
  rw [Doc.pvpv0, sub_doc, len_doc, op_doc, op_doc, op_doc, op_doc]
  ext i j
  fin_cases i <;> fin_cases j <;> simp [pvpv0, M3.doc, M3.outer, M3.eye] <;> ring

theorem smul_op_eq_zero {k : ℝ} {a b : V3 ℝ} : k • Doc.op a.doc b.doc = 0 ↔ k = 0 ∨ a = ⟨0, 0, 0⟩ ∨ b = ⟨0, 0, 0⟩ := by
  have h0 : ∀ c : V3 ℝ, c.doc = 0 ↔ c = ⟨0, 0, 0⟩ := fun c =>
    ⟨fun h => doc_inj (h.trans (by ext i; fin_cases i <;> rfl)), fun h => by rw [h]; ext i; fin_cases i <;> rfl⟩
  rw [smul_eq_zero, Doc.op, vecMulVec_eq_zero, h0, h0]

/-- C84: the displayed `pvpr0` is what the code computes only if `μ C = 0` or `|r| |r₀| = 1`. -/
theorem C84_pvpr0_iff {r v r0 v0 : V3 ℝ} (hr : r ≠ ⟨0, 0, 0⟩) (hr0 : r0 ≠ ⟨0, 0, 0⟩) (Ft C mu : ℝ) :
    (pvpr0 r v r0 v0 Ft C mu).doc = Doc.pvpr0 r.doc v.doc r0.doc v0.doc Ft C mu ↔ mu * C = 0 ∨ V3.norm r * V3.norm r0 = 1 := by
  have h1 := (V3.norm_pos r).2 hr
  have h2 := (V3.norm_pos r0).2 hr0
  rw [C84_pvpr0_difference, add_eq_left, smul_op_eq_zero]
  have e : mu * C / (V3.norm r ^ 2 * V3.norm r0 ^ 2) - mu * C / (V3.norm r ^ 3 * V3.norm r0 ^ 3)
      = mu * C * (V3.norm r * V3.norm r0 - 1) / (V3.norm r ^ 3 * V3.norm r0 ^ 3) := by field_simp
  rw [e, div_eq_zero_iff, mul_eq_zero, sub_eq_zero]
  simp only [hr, hr0, or_false]
  exact or_iff_left (by positivity)

/-- C84: the displayed `pvpv0` is what the code computes only at equal distances or if the covector `r₀ (1 - F) r₀ - C v₀`
vanishes. -/
theorem C84_pvpv0_iff {r v r0 v0 : V3 ℝ} (hr : r ≠ ⟨0, 0, 0⟩) (hr0 : r0 ≠ ⟨0, 0, 0⟩) (F Gt C mu : ℝ) :
    (pvpv0 r v r0 v0 F Gt C mu).doc = Doc.pvpv0 r.doc v.doc r0.doc v0.doc F Gt C mu ↔
      V3.norm r = V3.norm r0 ∨ (V3.norm r0 * (1 - F)) • r0 - C • v0 = ⟨0, 0, 0⟩ := by
  have h1 := (V3.norm_pos r).2 hr
  have h2 := (V3.norm_pos r0).2 hr0
  rw [C84_pvpv0_difference, add_eq_left, smul_op_eq_zero]
  simp only [hr, false_or]
  refine or_congr ?_ Iff.rfl
  rw [sub_eq_zero, one_div, one_div, inv_inj]
  exact pow_left_inj₀ h1.le h2.le (by norm_num)

/-- C84: the displayed velocity blocks are wrong at a state and time where, by C29, the code's matrix is the Jacobian of the
motion: the parabola with periapsis distance 1, a quarter turn after periapsis. -/
theorem C84_state_trans_refuted : ∃ (r v r0 v0 : V3 ℝ) (t F Gt Ft C : ℝ),
    angular_momentum r0 v0 ≠ ⟨0, 0, 0⟩ ∧ exactProp r0 v0 1 t = (r, v) ∧
    (dxdx0 r v r0 v0 t 1).vr = pvpr0 r v r0 v0 Ft C 1 ∧ (dxdx0 r v r0 v0 t 1).vv = pvpv0 r v r0 v0 F Gt C 1 ∧
    (dxdx0 r v r0 v0 t 1).vr.doc ≠ Doc.pvpr0 r.doc v.doc r0.doc v0.doc Ft C 1 ∧
    (dxdx0 r v r0 v0 t 1).vv.doc ≠ Doc.pvpv0 r.doc v.doc r0.doc v0.doc F Gt C 1 := by
  have s2 : √2 * √2 = (2 : ℝ) := Real.mul_self_sqrt (by norm_num)
  have s2' : √(2 : ℝ) ^ 2 = 2 := Real.sq_sqrt (by norm_num)
  have s0 : 0 < √(2 : ℝ) := by positivity
  set q := √(2 : ℝ) with hq
  have n0 : V3.norm (⟨1, 0, 0⟩ : V3 ℝ) = 1 := by simp [V3.norm, V3.dot]
  have n1 : V3.norm (⟨0, 2, 0⟩ : V3 ℝ) = 2 := by
    simp only [V3.norm, V3.dot, sqrt_real]
    rw [show (0 * 0 + 2 * 2 + 0 * 0 : ℝ) = 2 ^ 2 by norm_num]
    exact Real.sqrt_sq (by norm_num)
  have nv : V3.norm (⟨0, q, 0⟩ : V3 ℝ) = q := by
    simp only [V3.norm, V3.dot, sqrt_real, zero_mul, zero_add, add_zero]; exact Real.sqrt_mul_self s0.le
  have ha : semimajor_axis (1 : ℝ) q 1 = 0 := by simp [semimajor_axis, s2']
  have hne : (⟨0, 2, 0⟩ : V3 ℝ) ≠ ⟨0, 0, 0⟩ := fun h => by simpa using congrArg V3.y h
  have hne0 : (⟨1, 0, 0⟩ : V3 ℝ) ≠ ⟨0, 0, 0⟩ := fun h => by simpa using congrArg V3.x h
  have hα : alphaOf (⟨1, 0, 0⟩ : V3 ℝ) ⟨0, q, 0⟩ 1 = 0 := by rw [alphaOf, n0, nv, ha]; simp
  have hσ : sigma_fn (⟨1, 0, 0⟩ : V3 ℝ) ⟨0, q, 0⟩ 1 = 0 := by simp [sigma_fn, V3.dot]
  have hσ1 : sigma_fn (⟨0, 2, 0⟩ : V3 ℝ) ⟨-(q / 2), q / 2, 0⟩ 1 = q := by simp [sigma_fn, V3.dot]; ring
  have hχ : exactChi (⟨1, 0, 0⟩ : V3 ℝ) ⟨0, q, 0⟩ 1 (4 / 3 * q) = q := by
    refine (exactChi_unique' hne0 one_pos (isRoot_iff.2 ?_)).symm
    rw [hα, hσ, n0, kepU, U_zero_right, U_zero_right, U_zero_right, Real.sqrt_one]
    simp [Nat.factorial]
    linear_combination q / 6 * s2'
  have hd : dxdx0 (⟨0, 2, 0⟩ : V3 ℝ) ⟨-(q / 2), q / 2, 0⟩ ⟨1, 0, 0⟩ ⟨0, q, 0⟩ (4 / 3 * q) 1
      = ⟨prpr0 ⟨0, 2, 0⟩ ⟨-(q / 2), q / 2, 0⟩ ⟨1, 0, 0⟩ ⟨0, q, 0⟩ 0 (-(7 / 5) * q) 1,
        prpv0 ⟨0, 2, 0⟩ ⟨-(q / 2), q / 2, 0⟩ ⟨1, 0, 0⟩ ⟨0, q, 0⟩ 0 q (-(7 / 5) * q) 1,
        pvpr0 ⟨0, 2, 0⟩ ⟨-(q / 2), q / 2, 0⟩ ⟨1, 0, 0⟩ ⟨0, q, 0⟩ (-(q / 2)) (-(7 / 5) * q) 1,
        pvpv0 ⟨0, 2, 0⟩ ⟨-(q / 2), q / 2, 0⟩ ⟨1, 0, 0⟩ ⟨0, q, 0⟩ 0 (1 / 2) (-(7 / 5) * q) 1⟩ := by
    have hg : generalized_anomaly (0 : ℝ) q 0 (4 / 3 * q) 1 = q := by simp [generalized_anomaly]
    have u1 : ufunc1 q (0 : ℝ) = q := by simp [ufunc1]
    have u2 : ufunc2 q (0 : ℝ) = 1 := by simp [ufunc2, s2']
    have u4 : ufunc4 q (0 : ℝ) = 1 / 6 := by
      simp [ufunc4]; rw [show q ^ 4 = (q ^ 2) ^ 2 by ring, s2']; norm_num
    have u5 : ufunc5 q (0 : ℝ) = q / 30 := by
      simp [ufunc5]; rw [show q ^ 5 = (q ^ 2) ^ 2 * q by ring, s2']; ring
    have hC : C_func q 1 (1 / 6) (q / 30) (4 / 3 * q) (1 : ℝ) = -(7 / 5) * q := by simp [C_func]; ring
    have hF : lagrange_F (1 : ℝ) 1 = 0 := by simp [lagrange_F]
    have hG : lagrange_G q 1 0 1 (1 : ℝ) = q := by simp [lagrange_G]
    have hFt : lagrange_Ft q 2 1 (1 : ℝ) = -(q / 2) := by simp [lagrange_Ft]; ring
    have hGt : lagrange_Gt (1 : ℝ) 2 = 1 / 2 := by simp [lagrange_Gt]; norm_num
    simp only [dxdx0, n0, n1, nv, ha, hσ, hσ1, Nat.cast_one, div_zero, hg, u1, u2, u4, u5, hC, hF, hG, hFt, hGt]
  refine ⟨⟨0, 2, 0⟩, ⟨-(q / 2), q / 2, 0⟩, ⟨1, 0, 0⟩, ⟨0, q, 0⟩, 4 / 3 * q, 0, 1 / 2, -(q / 2), -(7 / 5) * q, ?_, ?_, ?_, ?_, ?_, ?_⟩
  · intro h
    have := congrArg V3.z h
    simp [angular_momentum] at this
    exact s0.ne' this
  · have hR : radU 0 1 0 q = 2 := by
      rw [radU, U_zero_right, U_zero_right, U_zero_right]; simp [Nat.factorial, s2']; norm_num
    rw [exactProp_eq, hχ, hα, hσ, n0]
    simp only [cF, cG, cFt, cGt, hR, U_zero_right]
    refine Prod.ext ?_ ?_ <;> ext <;> simp [Nat.factorial, s2', s2] <;> ring
  · rw [hd]
  · rw [hd]
  · rw [hd, ne_eq, C84_pvpr0_iff hne hne0, n0, n1]
    rintro (h | h)
    · have : q = 0 := by linarith
      exact s0.ne' this
    · norm_num at h
  · rw [hd, ne_eq, C84_pvpv0_iff hne hne0, n0, n1]
    rintro (h | h)
    · norm_num at h
    · have := congrArg V3.x h
      simp at this

end Adx
