import Verif.Props.C64
import Verif.Props.C29

/-! # C64, continued: the orbital elements, the accelerations, the parabola -/

namespace Adx
open XR (fin pinf ninf nan vec vec_norm)
open XRDual

variable {a mu P r v p e f h U0 U1 U2 s0 chi alpha E M H N t dt : Dual ℝ} {rv vv ev nv hv : V3 (Dual ℝ)}

/-! ### `gravity/_general.py` -/

/-- Finite traced arguments. -/
noncomputable def dfinArgs (a : Args (Dual ℝ)) : Args (Dual XR) := fun k => (a k).map dfin
/-- A finite traced state. -/
noncomputable def dfinState (x : State (Dual ℝ)) : State (Dual XR) := ⟨dvec x.pos, x.rest.map dfin⟩

theorem dfinArgs_get (a : Args (Dual ℝ)) (k : String) : (dfinArgs a).get k = (a.get k).map dfin := by
  simp only [Args.get, dfinArgs]
  cases a k <;> rfl

/-- The accelerations and the altitude event have finite tangents at every position other than the origin. -/
theorem C64_gravity (t : Dual ℝ) (x : State (Dual ℝ)) (a : Args (Dual ℝ)) (hx : x.pos.vals ≠ ⟨0, 0, 0⟩) :
    point_mass_grav (dfin t) (dfinState x) (dfinArgs a) = (point_mass_grav t x a).map dvec ∧
    j2_acc (dfin t) (dfinState x) (dfinArgs a) = (j2_acc t x a).map dvec ∧
    j3_acc (dfin t) (dfinState x) (dfinArgs a) = (j3_acc t x a).map dvec ∧
    j4_acc (dfin t) (dfinState x) (dfinArgs a) = (j4_acc t x a).map dvec ∧
    radius_islow (dfin t) (dfinState x) (dfinArgs a) = (radius_islow t x a).map dfin := by
  have n := (norm_val_pos hx).ne'
  have hn : ∀ k : ℕ, (V3.norm x.pos ^ k).val ≠ 0 := fun k => pow_ne_zero k n
  have lit : ∀ n : ℕ, n ≠ 0 → ((n : ℕ) : Dual ℝ).val ≠ 0 := fun n hn => by
    show (n : ℝ) ≠ 0
    exact_mod_cast hn
  have l2 := lit 2 (by norm_num)
  have l3 := lit 3 (by norm_num)
  have l5 := lit 5 (by norm_num)
  have l8 := lit 8 (by norm_num)
  have hx' : V3.norm (dfinState x).pos = dfin (V3.norm x.pos) := C64_norm hx
  have e1 : (dfinState x).pos.x = dfin x.pos.x := rfl
  have e2 : (dfinState x).pos.y = dfin x.pos.y := rfl
  have e3 : (dfinState x).pos.z = dfin x.pos.z := rfl
  refine ⟨?_, ?_, ?_, ?_, ?_⟩
  · simp only [point_mass_grav, dfinArgs_get]
    cases a.get "mu" with
    | error _ => rfl
    | ok mu =>
      simp only [Except.map, bind, Except.bind, pure, Except.pure, hx', e1, e2, e3, pow, div (hn _), neg, mul, vmk]
  · simp only [j2_acc, dfinArgs_get]
    rcases a.get "mu" with _ | mu <;> [rfl; rcases a.get "J2" with _ | J <;>
      [rfl; rcases a.get "R_eq" with _ | R <;> [rfl; skip]]]
    simp only [Except.map, bind, Except.bind, pure, Except.pure, hx', e1, e2, e3, pow, nat, div l2, div (hn _), div n, neg, mul,
      sub, add, vmk]
  · simp only [j3_acc, dfinArgs_get]
    rcases a.get "mu" with _ | mu <;> [rfl; rcases a.get "J3" with _ | J <;>
      [rfl; rcases a.get "R_eq" with _ | R <;> [rfl; skip]]]
    simp only [Except.map, bind, Except.bind, pure, Except.pure, hx', e1, e2, e3, pow, nat, div l2, div l5, div (hn _), div n, neg, mul,
      sub, add, vmk]
  · simp only [j4_acc, dfinArgs_get]
    rcases a.get "mu" with _ | mu <;> [rfl; rcases a.get "J4" with _ | J <;>
      [rfl; rcases a.get "R_eq" with _ | R <;> [rfl; skip]]]
    simp only [Except.map, bind, Except.bind, pure, Except.pure, hx', e1, e2, e3, pow, nat, div l3, div l8, div (hn _), div n, neg, mul,
      sub, add, vmk]
  · simp only [radius_islow, dfinArgs_get]
    cases a.get "rmin" with
    | error _ => rfl
    | ok mu => simp only [Except.map, bind, Except.bind, pure, Except.pure, hx', sub]

/-! ### Traced vectors and NaN tangents -/

/-- The vector is traced: every component carries a tangent, as under `jax.jacfwd` or `jax.jvp`. -/
def TracedV (v : V3 (Dual ℝ)) : Prop := v.x.tan.isSome ∧ v.y.tan.isSome ∧ v.z.tan.isSome

namespace Traced
variable (a b : Dual ℝ)
theorem addTan (s t : Option ℝ) : (Dual.addTan s t).isSome = (s.isSome || t.isSome) := by
  cases s <;> cases t <;> rfl
theorem add : (a + b).tan.isSome = (a.tan.isSome || b.tan.isSome) := addTan _ _
theorem sub : (a - b).tan.isSome = (a.tan.isSome || b.tan.isSome) := (addTan _ _).trans (by simp)
theorem mul : (a * b).tan.isSome = (a.tan.isSome || b.tan.isSome) := (addTan _ _).trans (by simp)
theorem div : (a / b).tan.isSome = (a.tan.isSome || b.tan.isSome) := (addTan _ _).trans (by simp)
theorem pow (n : ℕ) : (a ^ n).tan.isSome = a.tan.isSome := by
  show (a.tan.map _).isSome = _
  simp
theorem sqrt : (JFun.sqrt a).tan.isSome = a.tan.isSome := by
  show (a.tan.map _).isSome = _
  simp
theorem norm (v : V3 (Dual ℝ)) : (V3.norm v).tan.isSome = (v.x.tan.isSome || v.y.tan.isSome || v.z.tan.isSome) := by
  rw [V3.norm, sqrt]
  simp only [V3.dot, add, mul, Bool.or_self]
end Traced

theorem TracedV.cross_right (u : V3 (Dual ℝ)) (hv : TracedV vv) : TracedV (V3.cross u vv) := by
  obtain ⟨hx, hy, hz⟩ := hv
  simp [TracedV, V3.cross, Traced.sub, Traced.mul, hx, hy, hz]
theorem TracedV.cross_left (u : V3 (Dual ℝ)) (hv : TracedV vv) : TracedV (V3.cross vv u) := by
  obtain ⟨hx, hy, hz⟩ := hv
  simp [TracedV, V3.cross, Traced.sub, Traced.mul, hx, hy, hz]

theorem TracedV.ecc (h : TracedV rv ∨ TracedV vv) : TracedV (eccentricity_vector rv vv mu) := by
  rcases h with h | h
  · obtain ⟨hx, hy, hz⟩ := h
    refine ⟨?_, ?_, ?_⟩
    · show ((_ : Dual ℝ) - rv.x / V3.norm rv).tan.isSome
      simp [Traced.sub, Traced.div, hx]
    · show ((_ : Dual ℝ) - rv.y / V3.norm rv).tan.isSome
      simp [Traced.sub, Traced.div, hy]
    · show ((_ : Dual ℝ) - rv.z / V3.norm rv).tan.isSome
      simp [Traced.sub, Traced.div, hz]
  · obtain ⟨hx, hy, hz⟩ := h.cross_left (angular_momentum rv vv)
    refine ⟨?_, ?_, ?_⟩
    · show ((V3.cross vv (angular_momentum rv vv)).x / mu - _).tan.isSome
      rw [Traced.sub, Traced.div, hx]; rfl
    · show ((V3.cross vv (angular_momentum rv vv)).y / mu - _).tan.isSome
      rw [Traced.sub, Traced.div, hy]; rfl
    · show ((V3.cross vv (angular_momentum rv vv)).z / mu - _).tan.isSome
      rw [Traced.sub, Traced.div, hz]; rfl

theorem TracedV.ang (h : TracedV rv ∨ TracedV vv) : TracedV (angular_momentum rv vv) := by
  rcases h with h | h
  · exact h.cross_left vv
  · exact h.cross_right rv

/-- The tangent is NaN. -/
def NaNTan (d : Dual XR) : Prop := d.tan = some nan

namespace NaNTan
variable {x y : Dual XR}
theorem addTan_l (s : Option XR) : Dual.addTan (some nan) s = some nan := by cases s <;> simp [Dual.addTan]
theorem addTan_r (s : Option XR) : Dual.addTan s (some nan) = some nan := by cases s <;> simp [Dual.addTan]
theorem add_l (h : NaNTan x) : NaNTan (x + y) := by
  show Dual.addTan x.tan y.tan = _
  rw [show x.tan = some nan from h, addTan_l]
theorem add_r (h : NaNTan y) : NaNTan (x + y) := by
  show Dual.addTan x.tan y.tan = _
  rw [show y.tan = some nan from h, addTan_r]
theorem sub_l (h : NaNTan x) : NaNTan (x - y) := by
  show Dual.addTan x.tan (y.tan.map _) = _
  rw [show x.tan = some nan from h, addTan_l]
theorem sub_r (h : NaNTan y) : NaNTan (x - y) := by
  show Dual.addTan x.tan (y.tan.map _) = _
  rw [show y.tan = some nan from h, Option.map_some, XR.neg_nan, addTan_r]
theorem mul_l (h : NaNTan x) : NaNTan (x * y) := by
  show Dual.addTan (x.tan.map _) (y.tan.map _) = _
  rw [show x.tan = some nan from h, Option.map_some, XR.nan_mul, addTan_l]
theorem mul_r (h : NaNTan y) : NaNTan (x * y) := by
  show Dual.addTan (x.tan.map _) (y.tan.map _) = _
  rw [show y.tan = some nan from h, Option.map_some, XR.mul_nan, addTan_r]
theorem div_l (h : NaNTan x) : NaNTan (x / y) := by
  show Dual.addTan (x.tan.map _) (y.tan.map _) = _
  rw [show x.tan = some nan from h, Option.map_some, XR.nan_div, addTan_l]
theorem neg (h : NaNTan x) : NaNTan (-x) := by
  show x.tan.map _ = _
  rw [show x.tan = some nan from h, Option.map_some, XR.neg_nan]
theorem pow (h : NaNTan x) (n : ℕ) : NaNTan (x ^ (n + 1)) := by
  show x.tan.map _ = _
  rw [show x.tan = some nan from h, Option.map_some, if_neg (Nat.succ_ne_zero n), XR.nan_mul]
theorem abs (h : NaNTan x) : NaNTan (JFun.abs x) := by
  show x.tan.map _ = _
  rw [show x.tan = some nan from h, Option.map_some, XR.nan_mul]
theorem arctan2_l (h : NaNTan x) : NaNTan (JFun.arctan2 x y) := by
  show Dual.addTan (x.tan.map _) (y.tan.map _) = _
  rw [show x.tan = some nan from h, Option.map_some, XR.nan_mul, addTan_l]
theorem wrap (h : NaNTan x) : NaNTan (wrapNeg x) := by
  unfold wrapNeg
  split_ifs
  · exact h.add_r
  · exact h
end NaNTan

/-- The norm of a traced vector at zero: value 0, tangent `0 * inf`, NaN. -/
theorem C64_norm_zero (h0 : rv.vals = ⟨0, 0, 0⟩) (ht : rv.x.tan.isSome ∨ rv.y.tan.isSome ∨ rv.z.tan.isSome) :
    V3.norm (dvec rv) = ⟨fin 0, some nan⟩ := by
  have hx : rv.x.val = 0 := congrArg V3.x h0
  have hy : rv.y.val = 0 := congrArg V3.y h0
  have hz : rv.z.val = 0 := congrArg V3.z h0
  have hv : (V3.dot rv rv).val = 0 := by rw [dot_val, hx, hy, hz]; ring
  have hs : (V3.dot rv rv).tan.isSome := by
    simp only [V3.dot, Traced.add, Traced.mul, Bool.or_self, Bool.or_eq_true]
    tauto
  obtain ⟨g, hg⟩ := Option.isSome_iff_exists.1 hs
  have sq : ∀ d : Dual ℝ, d.val = 0 → (d * d).tan.getD 0 = 0 := fun d hd => by
    show (Dual.addTan (d.tan.map _) (d.tan.map _)).getD 0 = 0
    rw [hd]
    cases d.tan <;> simp [Dual.addTan]
  have hg0 : g = 0 := by
    have h1 : (V3.dot rv rv).tan.getD 0 = 0 := by
      show (Dual.addTan (Dual.addTan (rv.x * rv.x).tan (rv.y * rv.y).tan) (rv.z * rv.z).tan).getD 0 = 0
      rw [Spec.Dual.dot_addTan, Spec.Dual.dot_addTan, sq _ hx, sq _ hy, sq _ hz]; ring
    rw [hg] at h1
    exact h1
  rw [V3.norm, vdot]
  have hs0 : JFun.sqrt (fin (V3.dot rv rv).val) = fin 0 := by
    rw [hv, XR.sqrt_fin le_rfl, Real.sqrt_zero]
  refine Dual.ext hs0 ?_
  show ((V3.dot rv rv).tan.map fin).map (fun g => g * (((1 : ℕ) : XR) / ((2 : ℕ) : XR) / JFun.sqrt (fin (V3.dot rv rv).val))) = _
  rw [hs0, hg, hg0, XR.cast_fin, XR.cast_fin, XR.fin_div _ (by norm_num : ((2 : ℕ) : ℝ) ≠ 0), XR.fin_div_zero,
    XR.infOf_pos (by norm_num)]
  simp

/-! ### `_orb_elements.py` -/

theorem wrapNeg_dfin (x : Dual ℝ) : wrapNeg (dfin x) = dfin (wrapNeg x) := by
  unfold wrapNeg
  simp only [nat, pi, lt, mul, add]
  exact (apply_ite dfin _ _ _).symm

theorem cross_vals : (V3.cross rv vv).vals = V3.cross rv.vals vv.vals := rfl

/-- The inclination has a finite tangent off the equator; at an equatorial orbit the value is `0` or `pi` and the
tangent NaN, whatever the perturbation (also one that keeps the orbit equatorial). -/
theorem C64_inclination (h0 : hv.vals ≠ ⟨0, 0, 0⟩) :
    (hv.x.val ≠ 0 ∨ hv.y.val ≠ 0 → inclination (dvec hv) = dfin (inclination hv)) ∧
    (hv.x.val = 0 → hv.y.val = 0 → TracedV hv → NaNTan (inclination (dvec hv)) ∧
      (inclination (dvec hv)).val = fin (if 0 < hv.z.val then 0 else Real.pi)) := by
  have hn := norm_val_pos h0
  have hsq : (V3.norm hv).val ^ 2 = hv.x.val ^ 2 + hv.y.val ^ 2 + hv.z.val ^ 2 := by
    rw [norm_vals, V3.norm_sq]
    simp only [V3.dot, V3.vals]; ring
  have hval : (hv.z / V3.norm hv).val = hv.z.val / (V3.norm hv).val := rfl
  have hlift : inclination (dvec hv) = JFun.arccos (dfin (hv.z / V3.norm hv)) := by
    rw [inclination, C64_norm h0, vz, div hn.ne']
  constructor
  · intro hxy
    have hp : 0 < hv.x.val ^ 2 + hv.y.val ^ 2 := by
      rcases hxy with hh | hh
      · have := pow_pos (abs_pos.2 hh) 2; rw [sq_abs] at this; nlinarith [sq_nonneg hv.y.val]
      · have := pow_pos (abs_pos.2 hh) 2; rw [sq_abs] at this; nlinarith [sq_nonneg hv.x.val]
    have habs : |hv.z.val| < (V3.norm hv).val := abs_lt_of_sq_lt_sq (by linarith) hn.le
    rw [abs_lt] at habs
    rw [hlift, arccos, inclination]
    · rw [hval, lt_div_iff₀ hn]; linarith
    · rw [hval, div_lt_iff₀ hn]; linarith
  · intro hx hy ht
    have hz : hv.z.val ≠ 0 := by
      intro hz
      apply h0
      rw [V3.vals, hx, hy, hz]
    have hnz : (V3.norm hv).val = |hv.z.val| := by
      rw [← abs_of_pos hn]
      apply (sq_eq_sq_iff_abs_eq_abs _ _).1
      rw [hsq, hx, hy]; ring
    set q := hv.z / V3.norm hv with hq
    have hq1 : q.val ^ 2 = 1 := by
      rw [hval, hnz, div_pow, sq_abs, div_self (pow_ne_zero 2 hz)]
    have htan : q.tan = some 0 := by
      have hs : q.tan.isSome := by
        rw [hq, Traced.div, ht.2.2]; rfl
      obtain ⟨g, hg⟩ := Option.isSome_iff_exists.1 hs
      have h1 : q.tan.getD 0 = Spec.Dual.dot hv.z / (V3.norm hv).val
          + -(Spec.Dual.dot (V3.norm hv)) * hv.z.val * (((1 : ℕ) : ℝ) / (V3.norm hv).val ^ 2) := by
        show (Dual.addTan (hv.z.tan.map _) ((V3.norm hv).tan.map _)).getD 0 = _
        rw [Spec.Dual.dot_addTan, Spec.Dual.dot_map _ _ (by simp), Spec.Dual.dot_map _ _ (by simp)]; rfl
      have h2 : Spec.Dual.dot (V3.norm hv) = 2 * hv.z.val * Spec.Dual.dot hv.z * (1 / 2 / (V3.norm hv).val) := by
        have h3 : (V3.dot hv hv).tan.getD 0 = 2 * hv.z.val * Spec.Dual.dot hv.z := by
          have sq : ∀ d : Dual ℝ, (d * d).tan.getD 0 = 2 * d.val * Spec.Dual.dot d := fun d => by
            show (Dual.addTan (d.tan.map _) (d.tan.map _)).getD 0 = _
            rw [Spec.Dual.dot_addTan, Spec.Dual.dot_map _ _ (by simp), Spec.Dual.dot_map _ _ (by simp)]
            simp only [Spec.Dual.dot]; ring
          show (Dual.addTan (Dual.addTan (hv.x * hv.x).tan (hv.y * hv.y).tan) (hv.z * hv.z).tan).getD 0 = _
          rw [Spec.Dual.dot_addTan, Spec.Dual.dot_addTan, sq, sq, sq, hx, hy]; ring
        show ((V3.dot hv hv).tan.map _).getD 0 = _
        rw [Spec.Dual.dot_map _ _ (by simp), h3]
        push_cast
        rfl
      rw [hg, h2] at h1
      have h4 : g = 0 := by
        have h5 : g = _ := h1
        rw [h5, hnz]
        have ha : |hv.z.val| ≠ 0 := abs_ne_zero.2 hz
        have hsq' : hv.z.val ^ 2 = |hv.z.val| ^ 2 := (sq_abs _).symm
        push_cast
        field_simp
        rw [hsq']; ring
      rw [hg, h4]
    have hz1 : JFun.sqrt (((1 : ℕ) : XR) - fin q.val ^ 2) = fin 0 := by
      rw [XR.cast_fin, XR.fin_pow, XR.fin_sub, hq1, Nat.cast_one, sub_self, XR.sqrt_fin le_rfl, Real.sqrt_zero]
    rw [hlift]
    constructor
    · show (q.tan.map fin).map (fun g => g * -(((1 : ℕ) : XR) / JFun.sqrt (((1 : ℕ) : XR) - fin q.val ^ 2))) = _
      rw [hz1, htan, XR.cast_fin, XR.fin_div_zero, XR.infOf_pos (by norm_num)]
      simp
    · show JFun.arccos (fin q.val) = _
      rw [hval, hnz]
      split_ifs with hpos
      · rw [abs_of_pos hpos, div_self hz, XR.arccos_fin (by norm_num) le_rfl, Real.arccos_one]
      · have hneg : hv.z.val < 0 := lt_of_le_of_ne (not_lt.1 hpos) hz
        rw [abs_of_neg hneg, div_neg, div_self hz, XR.arccos_fin le_rfl (by norm_num), Real.arccos_neg_one]

/-- The true anomaly has a finite tangent off the apsides; at an apsis (and for `e = 0`) the tangent is NaN. -/
theorem C64_true_anomaly :
    (V3.cross ev.vals rv.vals ≠ ⟨0, 0, 0⟩ → true_anomaly (dvec rv) (dvec ev) = dfin (true_anomaly rv ev)) ∧
    (V3.cross ev.vals rv.vals = ⟨0, 0, 0⟩ → TracedV rv ∨ TracedV ev → NaNTan (true_anomaly (dvec rv) (dvec ev))) := by
  constructor
  · intro h0
    have hn : (V3.cross ev rv).vals ≠ ⟨0, 0, 0⟩ := h0
    simp only [true_anomaly, vcross, vdot, C64_norm hn, arctan2 (Or.inl (norm_val_pos hn).ne'), wrapNeg_dfin]
  · intro h0 ht
    have hc : TracedV (V3.cross ev rv) := by
      rcases ht with h | h
      · exact h.cross_right ev
      · exact h.cross_left rv
    simp only [true_anomaly, vcross, vdot]
    rw [C64_norm_zero (rv := V3.cross ev rv) h0 (Or.inl hc.1)]
    exact NaNTan.wrap (NaNTan.arctan2_l (show some nan = some nan from rfl))

/-- The argument of periapsis has a finite tangent unless the periapsis lies on the node line (or one of the two is
undefined); there it is NaN. -/
theorem C64_argument_of_periapsis :
    (V3.cross nv.vals ev.vals ≠ ⟨0, 0, 0⟩ →
      argument_of_periapsis (dvec nv) (dvec ev) = dfin (argument_of_periapsis nv ev)) ∧
    (V3.cross nv.vals ev.vals = ⟨0, 0, 0⟩ → TracedV ev →
      NaNTan (argument_of_periapsis (dvec nv) (dvec ev))) := by
  constructor
  · intro h0
    have hn : (V3.cross nv ev).vals ≠ ⟨0, 0, 0⟩ := h0
    simp only [argument_of_periapsis, vcross, vdot, C64_norm hn, arctan2 (Or.inl (norm_val_pos hn).ne'), wrapNeg_dfin]
  · intro h0 ht
    have hc : TracedV (V3.cross nv ev) := ht.cross_right nv
    simp only [argument_of_periapsis, vcross, vdot]
    rw [C64_norm_zero (rv := V3.cross nv ev) h0 (Or.inl hc.1)]
    exact NaNTan.wrap (NaNTan.arctan2_l (show some nan = some nan from rfl))

theorem dvec_node : node_vec (dvec hv) = dvec (node_vec hv) := by
  simp only [node_vec, nat, vmk, vcross]

/-- The right ascension has a finite tangent unless the node vector is zero; there it is NaN. -/
theorem C64_right_ascension :
    (nv.x.val ≠ 0 ∨ nv.y.val ≠ 0 → right_ascension (dvec nv) = dfin (right_ascension nv)) ∧
    (nv.x.val = 0 → nv.y.val = 0 → nv.y.tan.isSome → NaNTan (right_ascension (dvec nv))) := by
  constructor
  · intro h
    simp only [right_ascension, vx, vy, arctan2 h.symm, wrapNeg_dfin]
  · intro hx hy ht
    unfold right_ascension
    refine NaNTan.wrap ?_
    obtain ⟨g, hg⟩ := Option.isSome_iff_exists.1 ht
    show Dual.addTan ((nv.y.tan.map fin).map _) _ = _
    rw [hg]
    have : fin g * ((dvec nv).x.val / ((dvec nv).y.val ^ 2 + (dvec nv).x.val ^ 2)) = nan := by
      show fin g * (fin nv.x.val / (fin nv.y.val ^ 2 + fin nv.x.val ^ 2)) = nan
      rw [hx, hy]; simp
    rw [Option.map_some, Option.map_some, this, NaNTan.addTan_l]

/-- C64, `rv2coe`: which of the six elements have a finite derivative with respect to the state. The state is traced
(`TracedV rv` or `TracedV vv`), not rectilinear, `mu > 0`. Each element is finite off its degenerate set and NaN on it:
the semiparameter always finite; the eccentricity NaN on circular orbits; inclination and node NaN on equatorial orbits;
argument of periapsis NaN with the periapsis on the node line, on circular and on equatorial orbits; true anomaly NaN
at the apsides and on circular orbits. -/
theorem C64_rv2coe (hmu : 0 < mu.val) (hh : angular_momentum rv.vals vv.vals ≠ ⟨0, 0, 0⟩) (ht : TracedV rv ∨ TracedV vv) :
    let o := rv2coe (dvec rv) (dvec vv) (dfin mu)
    let o' := rv2coe rv vv mu
    let h := angular_momentum rv.vals vv.vals
    let e := eccentricity_vector rv.vals vv.vals mu.val
    o.p = dfin o'.p ∧
    (e ≠ ⟨0, 0, 0⟩ → o.e = dfin o'.e) ∧ (e = ⟨0, 0, 0⟩ → NaNTan o.e) ∧
    (h.x ≠ 0 ∨ h.y ≠ 0 → o.incl = dfin o'.incl ∧ o.raan = dfin o'.raan) ∧
    (h.x = 0 → h.y = 0 → NaNTan o.incl ∧ NaNTan o.raan) ∧
    (V3.cross (node_vec h) e ≠ ⟨0, 0, 0⟩ → o.argp = dfin o'.argp) ∧
    (V3.cross (node_vec h) e = ⟨0, 0, 0⟩ → NaNTan o.argp) ∧
    (V3.cross e rv.vals ≠ ⟨0, 0, 0⟩ → o.true_anom = dfin o'.true_anom) ∧
    (V3.cross e rv.vals = ⟨0, 0, 0⟩ → NaNTan o.true_anom) := by
  intro o o' h e
  have hr := (ne_of_ang hh).1
  have hhv : (angular_momentum rv vv).vals = h := rfl
  have hev : (eccentricity_vector rv vv mu).vals = e := rfl
  have hec := C64_eccentricity_vector (rv := rv) (vv := vv) (mu := mu) hr hmu.ne'
  have hang := C64_angular_momentum (rv := rv) (vv := vv)
  have hte : TracedV (eccentricity_vector rv vv mu) := TracedV.ecc ht
  have hth := TracedV.ang ht
  have ho : o = ⟨semiparameter (V3.norm (dvec (angular_momentum rv vv))) (dfin mu), V3.norm (dvec (eccentricity_vector rv vv mu)),
      inclination (dvec (angular_momentum rv vv)), right_ascension (dvec (node_vec (angular_momentum rv vv))),
      argument_of_periapsis (dvec (node_vec (angular_momentum rv vv))) (dvec (eccentricity_vector rv vv mu)),
      true_anomaly (dvec rv) (dvec (eccentricity_vector rv vv mu))⟩ := by
    show rv2coe (dvec rv) (dvec vv) (dfin mu) = _
    simp only [rv2coe, hang, hec, dvec_node]
  have hnx : (node_vec (angular_momentum rv vv)).x.val = -h.y := by
    show ((0 : ℕ) : ℝ) * h.z - ((1 : ℕ) : ℝ) * h.y = -h.y
    push_cast; ring
  have hny : (node_vec (angular_momentum rv vv)).y.val = h.x := by
    show ((1 : ℕ) : ℝ) * h.x - ((0 : ℕ) : ℝ) * h.z = h.x
    push_cast; ring
  have hin := C64_inclination (hv := angular_momentum rv vv) hh
  have hra := C64_right_ascension (nv := node_vec (angular_momentum rv vv))
  have hta := C64_true_anomaly (rv := rv) (ev := eccentricity_vector rv vv mu)
  have har := C64_argument_of_periapsis (nv := node_vec (angular_momentum rv vv)) (ev := eccentricity_vector rv vv mu)
  have hnt : (node_vec (angular_momentum rv vv)).y.tan.isSome := by
    show (((1 : ℕ) : Dual ℝ) * (angular_momentum rv vv).x - ((0 : ℕ) : Dual ℝ) * (angular_momentum rv vv).z).tan.isSome
    rw [Traced.sub, Traced.mul, hth.1]; simp
  rw [ho]
  refine ⟨?_, fun h0 => C64_norm h0, fun h0 => ?_, fun hxy => ⟨hin.1 hxy, hra.1 ?_⟩, fun hx hy => ⟨(hin.2 hx hy hth).1, ?_⟩,
    har.1, fun h0 => har.2 h0 hte, hta.1, fun h0 => hta.2 h0 (Or.inr hte)⟩
  · show semiparameter (V3.norm (dvec (angular_momentum rv vv))) (dfin mu) = dfin (semiparameter (V3.norm (angular_momentum rv vv)) mu)
    rw [C64_norm (rv := angular_momentum rv vv) hh, C64_semiparameter hmu.ne']
  · show NaNTan (V3.norm (dvec (eccentricity_vector rv vv mu)))
    rw [C64_norm_zero (rv := eccentricity_vector rv vv mu) h0 (Or.inl hte.1)]; rfl
  · rw [hnx, hny]
    rcases hxy with hx | hy
    · exact Or.inr hx
    · exact Or.inl (neg_ne_zero.2 hy)
  · refine hra.2 ?_ ?_ hnt
    · rw [hnx, hy, neg_zero]
    · rw [hny, hx]

/-! ### The parabola -/

/-- `1 / (1 / x)` for a traced `x` of value 0: the value comes back, the tangent is NaN. -/
theorem recip_recip_zero {x : Dual ℝ} (hx : x.val = 0) (ht : x.tan.isSome) :
    ((1 : ℕ) : Dual XR) / (((1 : ℕ) : Dual XR) / dfin x) = ⟨fin 0, some nan⟩ := by
  obtain ⟨g, hg⟩ := Option.isSome_iff_exists.1 ht
  have h1 : ((1 : ℕ) : Dual XR) / dfin x = ⟨pinf, some (XR.infOf (-g))⟩ := by
    refine Dual.ext ?_ ?_
    · show ((1 : ℕ) : XR) / fin x.val = pinf
      rw [hx, XR.cast_fin, XR.fin_div_zero, XR.infOf_pos (by norm_num)]
    · show Dual.addTan none ((x.tan.map fin).map fun g => -g * ((1 : ℕ) : XR) * (((1 : ℕ) : XR) / fin x.val ^ 2)) = _
      rw [hg, hx, Option.map_some, Option.map_some, XR.cast_fin, XR.fin_pow, show (0 : ℝ) ^ 2 = 0 by norm_num,
        XR.fin_div_zero, XR.infOf_pos (by norm_num), XR.fin_neg, XR.fin_mul]
      simp [Dual.addTan]
  rw [h1]
  refine Dual.ext ?_ ?_
  · show ((1 : ℕ) : XR) / pinf = fin 0
    simp
  · show Dual.addTan none (some (-XR.infOf (-g) * ((1 : ℕ) : XR) * (((1 : ℕ) : XR) / pinf ^ 2))) = some nan
    have hp : (pinf : XR) ^ 2 = pinf := by
      show XR.powNat pinf 2 = pinf
      simp only [XR.powNat, XR.fin_mul_pinf, XR.infOf_pos one_pos]; rfl
    rw [hp]
    have h0 : ((1 : ℕ) : XR) / pinf = fin 0 := by simp
    rw [h0]
    rcases lt_trichotomy g 0 with h | h | h
    · rw [XR.infOf_pos (by linarith)]; simp [Dual.addTan, XR.infOf_neg (show (-1 : ℝ) < 0 by norm_num)]
    · rw [h]; simp [Dual.addTan]
    · rw [XR.infOf_neg (by linarith)]; simp [Dual.addTan, XR.infOf_pos (one_pos (α := ℝ))]

/-- At a parabolic state `alpha = 1 / semimajor_axis(...)` has the right value, `0`, and a NaN derivative, although it
is the smooth function `2 / r - v^2 / mu`. -/
theorem C64_alpha_refuted (hmu : 0 < mu.val) (hr : rv.vals ≠ ⟨0, 0, 0⟩) (hv : vv.vals ≠ ⟨0, 0, 0⟩)
    (ha : alphaOf rv.vals vv.vals mu.val = 0) (ht : TracedV rv ∨ TracedV vv) :
    ((1 : ℕ) : Dual XR) / semimajor_axis (V3.norm (dvec rv)) (V3.norm (dvec vv)) (dfin mu) = ⟨fin 0, some nan⟩ ∧
    ∃ x : Dual ℝ, ((2 : ℕ) : Dual XR) / V3.norm (dvec rv) - V3.norm (dvec vv) ^ 2 / dfin mu = dfin x := by
  have hx : ((2 : ℕ) : Dual XR) / V3.norm (dvec rv) - V3.norm (dvec vv) ^ 2 / dfin mu
      = dfin (((2 : ℕ) : Dual ℝ) / V3.norm rv - V3.norm vv ^ 2 / mu) := by
    rw [C64_norm hr, C64_norm hv, nat, pow, div (norm_val_pos hr).ne', div hmu.ne', sub]
  refine ⟨?_, _, hx⟩
  rw [semimajor_axis, hx]
  refine recip_recip_zero ?_ ?_
  · show ((2 : ℕ) : ℝ) / V3.norm rv.vals - V3.norm vv.vals ^ 2 / mu.val = 0
    simpa [alphaOf, semimajor_axis] using ha
  · rw [Traced.sub, Traced.div, Traced.div, Traced.pow, Traced.norm, Traced.norm]
    rcases ht with h | h <;> simp [h.1]

/-- All nine tangents of a matrix are NaN. -/
def NaNMat (m : M3 (Dual XR)) : Prop :=
  (NaNTan m.r0.x ∧ NaNTan m.r0.y ∧ NaNTan m.r0.z) ∧ (NaNTan m.r1.x ∧ NaNTan m.r1.y ∧ NaNTan m.r1.z) ∧
    NaNTan m.r2.x ∧ NaNTan m.r2.y ∧ NaNTan m.r2.z

namespace NaNMat
variable {m n : M3 (Dual XR)} {k : Dual XR}

theorem add_r (h : NaNMat n) : NaNMat (m + n) :=
  ⟨⟨h.1.1.add_r, h.1.2.1.add_r, h.1.2.2.add_r⟩, ⟨h.2.1.1.add_r, h.2.1.2.1.add_r, h.2.1.2.2.add_r⟩,
    h.2.2.1.add_r, h.2.2.2.1.add_r, h.2.2.2.2.add_r⟩

theorem sub_l (h : NaNMat m) : NaNMat (m - n) :=
  ⟨⟨h.1.1.sub_l, h.1.2.1.sub_l, h.1.2.2.sub_l⟩, ⟨h.2.1.1.sub_l, h.2.1.2.1.sub_l, h.2.1.2.2.sub_l⟩,
    h.2.2.1.sub_l, h.2.2.2.1.sub_l, h.2.2.2.2.sub_l⟩

theorem smul (h : NaNTan k) : NaNMat (k • m) :=
  ⟨⟨h.mul_l, h.mul_l, h.mul_l⟩, ⟨h.mul_l, h.mul_l, h.mul_l⟩, h.mul_l, h.mul_l, h.mul_l⟩

end NaNMat

/-- C64: `dxdx0` uses `alpha` as it is. At a parabolic initial state its derivative with respect to that state (a
second derivative of the motion) is NaN in all 36 entries, whatever the final state, the time interval and its
tangents are. -/
theorem C64_dxdx0_parabola_refuted (R V : V3 (Dual XR)) (dt : Dual XR) (hmu : 0 < mu.val) (hr : rv.vals ≠ ⟨0, 0, 0⟩)
    (hv : vv.vals ≠ ⟨0, 0, 0⟩) (ha : alphaOf rv.vals vv.vals mu.val = 0) (ht : TracedV rv ∨ TracedV vv) :
    let o := dxdx0 R V (dvec rv) (dvec vv) dt (dfin mu)
    NaNMat o.rr ∧ NaNMat o.rv ∧ NaNMat o.vr ∧ NaNMat o.vv := by
  have hal := (C64_alpha_refuted hmu hr hv ha ht).1
  have c1 : JFun.lt ((0 : ℕ) : Dual XR) ⟨fin 0, some nan⟩ = false := decide_eq_false (by simp)
  have c2 : JFun.lt (⟨fin 0, some nan⟩ : Dual XR) ((0 : ℕ) : Dual XR) = false := decide_eq_false (by simp)
  have u1 : ∀ chi : Dual XR, ufunc1 chi (⟨fin 0, some nan⟩ : Dual XR) = chi := fun chi => by
    simp only [ufunc1, c1, c2, if_false, Bool.false_eq_true]
  have u2 : ∀ chi : Dual XR, NaNTan chi → NaNTan (ufunc2 chi (⟨fin 0, some nan⟩ : Dual XR)) := fun chi h => by
    simp only [ufunc2, c1, c2, if_false, Bool.false_eq_true]
    exact (h.pow 1).div_l
  unfold dxdx0
  simp only []
  rw [hal]
  have hc : NaNTan (generalized_anomaly (⟨fin 0, some nan⟩ : Dual XR) (sigma_fn R V (dfin mu))
      (sigma_fn (dvec rv) (dvec vv) (dfin mu)) dt (dfin mu)) :=
    ((show NaNTan (⟨fin 0, some nan⟩ : Dual XR) from rfl).mul_l.mul_l.add_l).sub_l
  set chi := generalized_anomaly (⟨fin 0, some nan⟩ : Dual XR) (sigma_fn R V (dfin mu))
      (sigma_fn (dvec rv) (dvec vv) (dfin mu)) dt (dfin mu)
  have h1 : NaNTan (ufunc1 chi (⟨fin 0, some nan⟩ : Dual XR)) := by rw [u1]; exact hc
  have h2 := u2 chi hc
  refine ⟨NaNMat.add_r (.smul h2.div_l.sub_r), NaNMat.add_r (.smul ?_),
    NaNMat.sub_l (NaNMat.add_r (.smul ?_)), NaNMat.add_r (.smul h2.div_l.sub_r)⟩
  · unfold lagrange_G
    first
      | exact h2.mul_r.add_r
      | exact ((h2.mul_r).add_r).div_l
      | exact ((h2.mul_l).add_r).div_l
  · unfold lagrange_Ft
    first
      | exact h1.mul_r.div_l
      | exact h1.neg.div_l

/-! ### Concrete cases -/

/-- A unit perturbation of the first component, as `jax.jacfwd` pushes it. -/
noncomputable def seedX (r : V3 ℝ) : V3 (Dual ℝ) := ⟨⟨r.x, some 1⟩, ⟨r.y, some 0⟩, ⟨r.z, some 0⟩⟩

theorem seedX_traced (r : V3 ℝ) : TracedV (seedX r) := ⟨rfl, rfl, rfl⟩

/-- The circular equatorial orbit `r = (1, 0, 0)`, `v = (0, 1, 0)`: the derivatives of five of the six elements are NaN. -/
example : let o := rv2coe (dvec (seedX ⟨1, 0, 0⟩)) (dvec (cstV ⟨0, 1, 0⟩)) (dfin (cst 1))
    (∃ x, o.p = dfin x) ∧ NaNTan o.e ∧ NaNTan o.incl ∧ NaNTan o.raan ∧ NaNTan o.argp ∧ NaNTan o.true_anom := by
  have hh : angular_momentum (⟨1, 0, 0⟩ : V3 ℝ) ⟨0, 1, 0⟩ = ⟨0, 0, 1⟩ := by simp [angular_momentum, V3.cross]
  have hn : V3.norm (⟨1, 0, 0⟩ : V3 ℝ) = 1 := by simp [V3.norm, V3.dot]
  have he : eccentricity_vector (⟨1, 0, 0⟩ : V3 ℝ) ⟨0, 1, 0⟩ 1 = ⟨0, 0, 0⟩ := by
    rw [eccentricity_vector, hh, hn]
    ext <;> simp [V3.cross]
  have hh0 : angular_momentum (⟨1, 0, 0⟩ : V3 ℝ) ⟨0, 1, 0⟩ ≠ ⟨0, 0, 0⟩ := by
    rw [hh]; intro h; have := congrArg V3.z h; norm_num at this
  obtain ⟨h1, -, h3, -, h5, -, h7, -, h9⟩ := C64_rv2coe (rv := seedX ⟨1, 0, 0⟩) (vv := cstV ⟨0, 1, 0⟩) (mu := cst 1)
    one_pos hh0 (Or.inl (seedX_traced _))
  have hx : (angular_momentum (⟨1, 0, 0⟩ : V3 ℝ) ⟨0, 1, 0⟩).x = 0 := by rw [hh]
  have hy : (angular_momentum (⟨1, 0, 0⟩ : V3 ℝ) ⟨0, 1, 0⟩).y = 0 := by rw [hh]
  refine ⟨⟨_, h1⟩, h3 he, (h5 hx hy).1, (h5 hx hy).2, h7 ?_, h9 ?_⟩
  · change V3.cross (node_vec _) (eccentricity_vector (⟨1, 0, 0⟩ : V3 ℝ) ⟨0, 1, 0⟩ 1) = _
    rw [he]; ext <;> simp [V3.cross]
  · change V3.cross (eccentricity_vector (⟨1, 0, 0⟩ : V3 ℝ) ⟨0, 1, 0⟩ 1) ⟨1, 0, 0⟩ = _
    rw [he]; ext <;> simp [V3.cross]

/-- The parabola `r = (2, 0, 0)`, `v = (0, 1, 0)`, `mu = 1`. -/
theorem parabola_state : angular_momentum (⟨2, 0, 0⟩ : V3 ℝ) ⟨0, 1, 0⟩ ≠ ⟨0, 0, 0⟩ ∧
    alphaOf (⟨2, 0, 0⟩ : V3 ℝ) ⟨0, 1, 0⟩ 1 = 0 := by
  constructor
  · intro h; have := congrArg V3.z h; simp [angular_momentum, V3.cross] at this
  · have h1 : V3.norm (⟨2, 0, 0⟩ : V3 ℝ) = 2 := by simp [V3.norm, V3.dot]
    have h2 : V3.norm (⟨0, 1, 0⟩ : V3 ℝ) = 1 := by simp [V3.norm, V3.dot]
    simp [alphaOf, semimajor_axis, h1, h2]

/-- There the derivative of the transition matrix is NaN, and the derivative of `kepler` is not. -/
example (R V : V3 (Dual XR)) (dt : Dual XR) (ts : List (Dual ℝ)) :
    NaNTan (dxdx0 R V (dvec (seedX ⟨2, 0, 0⟩)) (dvec (cstV ⟨0, 1, 0⟩)) dt (dfin (cst 1))).rv.r1.z ∧
    kepler (ts.map dfin) (dvec (seedX ⟨2, 0, 0⟩)) (dvec (cstV ⟨0, 1, 0⟩)) (dfin (cst 1))
      = (kepler ts (seedX ⟨2, 0, 0⟩) (cstV ⟨0, 1, 0⟩) (cst 1)).map (fun o => (o.1.map dvec, o.2.map dvec)) := by
  obtain ⟨hh, ha⟩ := parabola_state
  obtain ⟨hr, hv⟩ := ne_of_ang hh
  exact ⟨(C64_dxdx0_parabola_refuted (rv := seedX ⟨2, 0, 0⟩) (vv := cstV ⟨0, 1, 0⟩) (mu := cst 1) R V dt one_pos hr hv ha
    (Or.inl (seedX_traced _))).2.1.2.1.2.2, C64_kepler ts (mu := cst 1) one_pos hh⟩

/-- The ellipse `r = (1, 0, 0)`, `v = (0, 1, 1/2)`, `mu = 1`: every tangent of `kepler` is finite. -/
example (ts : List (Dual ℝ)) : kepler (ts.map dfin) (dvec (seedX ⟨1, 0, 0⟩)) (dvec (seedX ⟨0, 1, 1 / 2⟩)) (dfin (cst 1))
    = (kepler ts (seedX ⟨1, 0, 0⟩) (seedX ⟨0, 1, 1 / 2⟩) (cst 1)).map (fun o => (o.1.map dvec, o.2.map dvec)) := by
  have hh : angular_momentum (⟨1, 0, 0⟩ : V3 ℝ) ⟨0, 1, 1 / 2⟩ ≠ ⟨0, 0, 0⟩ := by
    intro h; have := congrArg V3.z h; simp [angular_momentum, V3.cross] at this
  exact C64_kepler ts (mu := cst 1) one_pos hh

end Adx
