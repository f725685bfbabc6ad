import Verif.Props.C82

/-! # C82, continued: the accelerations, the orbital elements, the parabola -/

namespace Adx
open XR (fin pinf ninf nan)
open Spec
variable {ι : Type}
variable {mu x t : Rev ι XR} {mu' x' t' : Rev ι ℝ} {i : ι}
variable {rv vv ev nv hv R V : V3 (Rev ι XR)} {rv' vv' ev' nv' hv' R' V' : V3 (Rev ι ℝ)}

/-! ### `gravity/_general.py` -/

/-- Finite traced arguments with the same keys. -/
def RFinArgs (a : Args (Rev ι XR)) (a' : Args (Rev ι ℝ)) : Prop := ∀ k, RelO RFin (a k) (a' k)

theorem RFinArgs.get {a : Args (Rev ι XR)} {a' : Args (Rev ι ℝ)} (h : RFinArgs a a') (k : String) :
    (∃ e, a.get k = .error e ∧ a'.get k = .error e) ∨ ∃ x y, a.get k = .ok x ∧ a'.get k = .ok y ∧ RFin x y := by
  have := h k
  unfold Args.get
  revert this
  cases a k <;> cases a' k <;> intro this
  · exact Or.inl ⟨_, rfl, rfl⟩
  · exact this.elim
  · exact this.elim
  · exact Or.inr ⟨_, _, rfl, rfl, this⟩

/-- The accelerations and the altitude event have finite gradients at every position other than the origin. -/
theorem C82_gravity {s : State (Rev ι XR)} {s' : State (Rev ι ℝ)} {a : Args (Rev ι XR)} {a' : Args (Rev ι ℝ)}
    (hs : RFinV s.pos s'.pos) (ha : RFinArgs a a') (h0 : s'.pos.rvals ≠ ⟨0, 0, 0⟩) :
    RelE (RelV RFin) (point_mass_grav t s a) (point_mass_grav t' s' a') ∧
    RelE (RelV RFin) (j2_acc t s a) (j2_acc t' s' a') ∧
    RelE (RelV RFin) (j3_acc t s a) (j3_acc t' s' a') ∧
    RelE (RelV RFin) (j4_acc t s a) (j4_acc t' s' a') ∧
    RelE RFin (radius_islow t s a) (radius_islow t' s' a') := by
  have hx := hs.x
  have hy := hs.y
  have hz := hs.z
  have n := C82_norm hs h0
  have n0 := (rnorm_pos h0).ne'
  have hn : ∀ k : ℕ, (V3.norm s'.pos ^ k).val ≠ 0 := fun k => pow_ne_zero k n0
  have n2 := hn 2
  have n3 := hn 3
  have n4 := hn 4
  have n5 := hn 5
  have n7 := hn 7
  have lit : ∀ n : ℕ, n ≠ 0 → ((n : ℕ) : Rev ι ℝ).val ≠ 0 := fun n hn => by
    show (n : ℝ) ≠ 0
    exact_mod_cast hn
  have l2 := lit 2 (by norm_num)
  have l3 := lit 3 (by norm_num)
  have l5 := lit 5 (by norm_num)
  have l8 := lit 8 (by norm_num)
  refine ⟨?_, ?_, ?_, ?_, ?_⟩
  · unfold point_mass_grav
    rcases ha.get "mu" with ⟨e, h1, h2⟩ | ⟨m, m', h1, h2, h3⟩ <;> rw [h1, h2]
    · rfl
    · refine ⟨?_, ?_, ?_⟩ <;> dsimp only <;> rfin
  · unfold j2_acc
    rcases ha.get "mu" with ⟨e, h1, h2⟩ | ⟨m, m', h1, h2, h3⟩ <;> rw [h1, h2] <;> [rfl; skip]
    rcases ha.get "J2" with ⟨e, h1, h2⟩ | ⟨J, J', h1, h2, h4⟩ <;> rw [h1, h2] <;> [rfl; skip]
    rcases ha.get "R_eq" with ⟨e, h1, h2⟩ | ⟨q, q', h1, h2, h5⟩ <;> rw [h1, h2] <;> [rfl; skip]
    refine ⟨?_, ?_, ?_⟩ <;> dsimp only <;> rfin
  · unfold j3_acc
    rcases ha.get "mu" with ⟨e, h1, h2⟩ | ⟨m, m', h1, h2, h3⟩ <;> rw [h1, h2] <;> [rfl; skip]
    rcases ha.get "J3" with ⟨e, h1, h2⟩ | ⟨J, J', h1, h2, h4⟩ <;> rw [h1, h2] <;> [rfl; skip]
    rcases ha.get "R_eq" with ⟨e, h1, h2⟩ | ⟨q, q', h1, h2, h5⟩ <;> rw [h1, h2] <;> [rfl; skip]
    refine ⟨?_, ?_, ?_⟩ <;> dsimp only <;> rfin
  · unfold j4_acc
    rcases ha.get "mu" with ⟨e, h1, h2⟩ | ⟨m, m', h1, h2, h3⟩ <;> rw [h1, h2] <;> [rfl; skip]
    rcases ha.get "J4" with ⟨e, h1, h2⟩ | ⟨J, J', h1, h2, h4⟩ <;> rw [h1, h2] <;> [rfl; skip]
    rcases ha.get "R_eq" with ⟨e, h1, h2⟩ | ⟨q, q', h1, h2, h5⟩ <;> rw [h1, h2] <;> [rfl; skip]
    refine ⟨?_, ?_, ?_⟩ <;> dsimp only <;> rfin
  · unfold radius_islow
    rcases ha.get "rmin" with ⟨e, h1, h2⟩ | ⟨m, m', h1, h2, h3⟩ <;> rw [h1, h2] <;> [rfl; skip]
    exact n.sub h3

/-! ### Which inputs a vector depends on -/

/-- A NaN cotangent of some component reaches input `i`. -/
def ReachV (i : ι) (u : V3 (Rev ι XR)) : Prop := Reach i u.x ∨ Reach i u.y ∨ Reach i u.z

/-- A NaN cotangent of any component reaches input `i`. -/
def ReachAll (i : ι) (u : V3 (Rev ι XR)) : Prop := Reach i u.x ∧ Reach i u.y ∧ Reach i u.z

theorem ReachAll.some {u : V3 (Rev ι XR)} (h : ReachAll i u) : ReachV i u := Or.inl h.1

/-- An input reaches itself. -/
theorem C82_reach [DecidableEq ι] (y : ι → XR) (i : ι) : Reach i (Rev.input y i) :=
  ⟨_, rfl, fun ct h => by rw [Set.mem_singleton_iff] at h; simp [h]⟩

theorem Reach.norm {u : V3 (Rev ι XR)} (h : ReachV i u) : Reach i (V3.norm u) := by
  unfold V3.norm V3.dot
  rcases h with h | h | h
  · exact (h.mul_l.add_l.add_l).sqrt
  · exact (h.mul_l.add_r.add_l).sqrt
  · exact (h.mul_l.add_r).sqrt

/-- Two of the three components of a cross product depend on each component of a factor. -/
theorem Reach.ang (h : ReachV i rv ∨ ReachV i vv) :
    (Reach i (angular_momentum rv vv).x ∨ Reach i (angular_momentum rv vv).y) ∧
    (Reach i (angular_momentum rv vv).y ∨ Reach i (angular_momentum rv vv).z) ∧
    (Reach i (angular_momentum rv vv).x ∨ Reach i (angular_momentum rv vv).z) := by
  show (Reach i (rv.y * vv.z - rv.z * vv.y) ∨ Reach i (rv.z * vv.x - rv.x * vv.z)) ∧
    (Reach i (rv.z * vv.x - rv.x * vv.z) ∨ Reach i (rv.x * vv.y - rv.y * vv.x)) ∧
    (Reach i (rv.y * vv.z - rv.z * vv.y) ∨ Reach i (rv.x * vv.y - rv.y * vv.x))
  rcases h with (h | h | h) | (h | h | h)
  · exact ⟨.inr h.mul_l.sub_r, .inl h.mul_l.sub_r, .inr h.mul_l.sub_l⟩
  · exact ⟨.inl h.mul_l.sub_l, .inr h.mul_l.sub_r, .inl h.mul_l.sub_l⟩
  · exact ⟨.inl h.mul_l.sub_r, .inl h.mul_l.sub_l, .inl h.mul_l.sub_r⟩
  · exact ⟨.inr h.mul_r.sub_l, .inl h.mul_r.sub_l, .inr h.mul_r.sub_r⟩
  · exact ⟨.inl h.mul_r.sub_r, .inr h.mul_r.sub_l, .inl h.mul_r.sub_r⟩
  · exact ⟨.inl h.mul_r.sub_l, .inl h.mul_r.sub_r, .inl h.mul_r.sub_l⟩

/-- Every component of the eccentricity vector depends on every component of the state. -/
theorem Reach.ecc (h : ReachV i rv ∨ ReachV i vv) : ReachAll i (eccentricity_vector rv vv mu) := by
  have hh := Reach.ang h
  set H := angular_momentum rv vv with hH
  show Reach i ((vv.y * H.z - vv.z * H.y) / mu - rv.x / V3.norm rv) ∧
    Reach i ((vv.z * H.x - vv.x * H.z) / mu - rv.y / V3.norm rv) ∧
    Reach i ((vv.x * H.y - vv.y * H.x) / mu - rv.z / V3.norm rv)
  refine ⟨?_, ?_, ?_⟩
  · rcases hh.2.1 with h | h
    · exact h.mul_r.sub_r.div_l.sub_l
    · exact h.mul_r.sub_l.div_l.sub_l
  · rcases hh.2.2 with h | h
    · exact h.mul_r.sub_l.div_l.sub_l
    · exact h.mul_r.sub_r.div_l.sub_l
  · rcases hh.1 with h | h
    · exact h.mul_r.sub_r.div_l.sub_l
    · exact h.mul_r.sub_l.div_l.sub_l

theorem Reach.cross_r {u w : V3 (Rev ι XR)} (h : ReachAll i w) : ReachAll i (V3.cross u w) :=
  ⟨h.2.2.mul_r.sub_l, h.1.mul_r.sub_l, h.2.1.mul_r.sub_l⟩
theorem Reach.cross_l {u w : V3 (Rev ι XR)} (h : ReachAll i u) : ReachAll i (V3.cross u w) :=
  ⟨h.2.1.mul_l.sub_l, h.2.2.mul_l.sub_l, h.1.mul_l.sub_l⟩

theorem NaNGrad.wrap (h : NaNGrad i x) : NaNGrad i (wrapNeg x) := by
  unfold wrapNeg
  split_ifs
  · exact h.add_r
  · exact h

/-- A square at zero turns an infinite cotangent into NaN. -/
theorem sq_bad (hx : x.val = fin 0) (h : Reach i x) : Bad {c | ∀ y, c ≠ fin y} i (x * x) := by
  refine BadAdj.l (BadAdj.pre h fun ct hct => ?_)
  rw [hx, Set.mem_singleton_iff]
  cases ct with
  | fin y => exact absurd rfl (hct y)
  | pinf => simp
  | ninf => simp
  | nan => simp

theorem mul_pinf_inf (ct : XR) : ∀ y, ct * pinf ≠ fin y := by
  intro y
  cases ct with
  | fin x => rw [XR.fin_mul_pinf, XR.infOf]; split_ifs <;> simp
  | pinf => exact fun h => by cases h
  | ninf => exact fun h => by cases h
  | nan => exact fun h => by cases h

/-- The norm of a vector at zero: every cotangent comes back as NaN. -/
theorem C82_norm_zero {u : V3 (Rev ι XR)} (hx : u.x.val = fin 0) (hy : u.y.val = fin 0) (hz : u.z.val = fin 0)
    (h : ReachV i u) : (V3.norm u).val = fin 0 ∧ NaNGrad i (V3.norm u) := by
  have hd : (V3.dot u u).val = fin 0 := by
    show u.x.val * u.x.val + u.y.val * u.y.val + u.z.val * u.z.val = fin 0
    rw [hx, hy, hz]; simp
  have hs : JFun.sqrt (V3.dot u u).val = fin 0 := by rw [hd, XR.sqrt_fin le_rfl, Real.sqrt_zero]
  refine ⟨hs, BadAdj.pre (T := {c | ∀ y, c ≠ fin y}) (x := V3.dot u u) ?_ fun ct _ => ?_⟩
  · rcases h with h | h | h
    · exact ((sq_bad hx h).add_l).add_l
    · exact ((sq_bad hy h).add_r).add_l
    · exact (sq_bad hz h).add_r
  · rw [hs, XR.cast_fin, XR.cast_fin, XR.fin_div _ (by norm_num : ((2 : ℕ) : ℝ) ≠ 0), XR.fin_div_zero,
      XR.infOf_pos (by norm_num)]
    exact mul_pinf_inf ct

/-! ### `_orb_elements.py` -/

theorem RFin.wrap (h : RFin x x') : RFin (wrapNeg x) (wrapNeg x') := by
  unfold wrapNeg
  rw [h.lt (RFin.nat 0)]
  split_ifs
  · rfin
  · exact h

/-- A finite traced vector with value zero. -/
theorem vals_zero {u : V3 (Rev ι XR)} {w : V3 (Rev ι ℝ)} (h : RFinV u w) (h0 : w.rvals = ⟨0, 0, 0⟩) :
    u.x.val = fin 0 ∧ u.y.val = fin 0 ∧ u.z.val = fin 0 := by
  have h1 : w.x.val = 0 := congrArg V3.x h0
  have h2 : w.y.val = 0 := congrArg V3.y h0
  have h3 : w.z.val = 0 := congrArg V3.z h0
  exact ⟨by rw [h.x.1, h1], by rw [h.y.1, h2], by rw [h.z.1, h3]⟩

/-- The inclination has a finite gradient off the equator; at an equatorial orbit every cotangent comes back as NaN. -/
theorem C82_inclination (hh : RFinV hv hv') (h0 : hv'.rvals ≠ ⟨0, 0, 0⟩) :
    (hv'.x.val ≠ 0 ∨ hv'.y.val ≠ 0 → RFin (inclination hv) (inclination hv')) ∧
    (hv'.x.val = 0 → hv'.y.val = 0 → Reach i hv.x ∨ Reach i hv.y → NaNGrad i (inclination hv)) := by
  have hn := rnorm_pos h0
  have hN := C82_norm hh h0
  have hsq : (V3.norm hv').val ^ 2 = hv'.x.val ^ 2 + hv'.y.val ^ 2 + hv'.z.val ^ 2 := by
    rw [rnorm_val, V3.norm_sq]
    simp only [V3.dot, V3.rvals]; ring
  have hval : (hv'.z / V3.norm hv').val = hv'.z.val / (V3.norm hv').val := rfl
  constructor
  · intro hxy
    have hp : 0 < hv'.x.val ^ 2 + hv'.y.val ^ 2 := by
      rcases hxy with hh | hh
      · have := pow_pos (abs_pos.2 hh) 2; rw [sq_abs] at this; nlinarith [sq_nonneg hv'.y.val]
      · have := pow_pos (abs_pos.2 hh) 2; rw [sq_abs] at this; nlinarith [sq_nonneg hv'.x.val]
    have habs : |hv'.z.val| < (V3.norm hv').val := abs_lt_of_sq_lt_sq (by linarith) hn.le
    rw [abs_lt] at habs
    refine RFin.arccos (hh.z.div hN hn.ne') ?_ ?_
    · rw [hval, lt_div_iff₀ hn]; linarith
    · rw [hval, div_lt_iff₀ hn]; linarith
  · intro hx hy hr
    have hz : hv'.z.val ≠ 0 := by
      intro hz
      apply h0
      rw [V3.rvals, hx, hy, hz]
    have hnz : (V3.norm hv').val = |hv'.z.val| := by
      rw [← abs_of_pos hn]
      apply (sq_eq_sq_iff_abs_eq_abs _ _).1
      rw [hsq, hx, hy]; ring
    have hq1 : (hv'.z / V3.norm hv').val ^ 2 = 1 := by
      rw [hval, hnz, div_pow, sq_abs, div_self (pow_ne_zero 2 hz)]
    have hq := hh.z.div hN hn.ne'
    have hz1 : JFun.sqrt (((1 : ℕ) : XR) - (hv.z / V3.norm hv).val ^ 2) = fin 0 := by
      rw [hq.1, XR.cast_fin, XR.fin_pow, XR.fin_sub, hq1, Nat.cast_one, sub_self, XR.sqrt_fin le_rfl, Real.sqrt_zero]
    have hbx : ∀ y : ℝ, y ≠ 0 → ∀ c : XR, (∀ z, c ≠ fin z) → ∀ z, c * fin y ≠ fin z := by
      intro y hy c hc z
      cases c with
      | fin w => exact absurd rfl (hc w)
      | pinf => rw [XR.pinf_mul_fin, XR.infOf]; split_ifs <;> simp
      | ninf => rw [XR.ninf_mul_fin, XR.infOf]; split_ifs <;> simp
      | nan => simp
    have hneg : ∀ c : XR, (∀ z, c ≠ fin z) → ∀ z, -c ≠ fin z := by
      intro c hc z
      cases c with
      | fin w => exact absurd rfl (hc w)
      | pinf => simp
      | ninf => simp
      | nan => simp
    -- the dot product turns non-finite cotangents into NaN
    have hdot : Bad {c | ∀ y, c ≠ fin y} i (V3.dot hv hv) := by
      rcases hr with h | h
      · exact ((sq_bad (by rw [hh.x.1, hx]) h).add_l).add_l
      · exact ((sq_bad (by rw [hh.y.1, hy]) h).add_r).add_l
    have hnorm : Bad {c | ∀ y, c ≠ fin y} i (V3.norm hv) := by
      refine BadAdj.pre (x := V3.dot hv hv) hdot fun ct hct => ?_
      have hN1 : JFun.sqrt (V3.dot hv hv).val = fin (V3.norm hv').val := hN.1
      rw [hN1, XR.cast_fin, XR.cast_fin, XR.fin_div _ (by norm_num : ((2 : ℕ) : ℝ) ≠ 0), XR.fin_div _ hn.ne']
      exact hbx _ (div_ne_zero (by norm_num) hn.ne') ct hct
    have hquo : Bad {c | ∀ y, c ≠ fin y} i (hv.z / V3.norm hv) := by
      refine BadAdj.r (BadAdj.pre hnorm fun ct hct => ?_)
      have h2 : (V3.norm hv').val ^ 2 ≠ 0 := pow_ne_zero 2 hn.ne'
      rw [hN.1, hh.z.1, XR.cast_fin, XR.fin_pow, XR.fin_div _ h2]
      exact hneg _ (hbx _ hz _ (hbx _ (div_ne_zero (by norm_num) h2) ct hct))
    refine BadAdj.pre (x := hv.z / V3.norm hv) hquo fun ct _ => ?_
    rw [hz1, XR.cast_fin, XR.fin_div_zero, XR.infOf_pos (by norm_num), XR.neg_pinf]
    intro y
    cases ct with
    | fin x => rw [XR.fin_mul_ninf, XR.infOf]; split_ifs <;> simp
    | pinf => exact fun h => by cases h
    | ninf => exact fun h => by cases h
    | nan => exact fun h => by cases h

/-- The true anomaly has a finite gradient off the apsides; at an apsis (and for `e = 0`) it is NaN. -/
theorem C82_true_anomaly (hr : RFinV rv rv') (he : RFinV ev ev') :
    (V3.cross ev'.rvals rv'.rvals ≠ ⟨0, 0, 0⟩ → RFin (true_anomaly rv ev) (true_anomaly rv' ev')) ∧
    (V3.cross ev'.rvals rv'.rvals = ⟨0, 0, 0⟩ → ReachV i (V3.cross ev rv) → NaNGrad i (true_anomaly rv ev)) := by
  have hc := RFinV.cross he hr
  constructor
  · intro h0
    have hn : (V3.cross ev' rv').rvals ≠ ⟨0, 0, 0⟩ := h0
    exact RFin.wrap (RFin.arctan2 (C82_norm hc hn) (RFinV.dot he hr) (Or.inl (rnorm_pos hn).ne'))
  · intro h0 ht
    obtain ⟨z1, z2, z3⟩ := vals_zero hc h0
    exact NaNGrad.wrap (Bad.arctan2_l (C82_norm_zero z1 z2 z3 ht).2)

/-- The argument of periapsis has a finite gradient unless the periapsis lies on the node line (or one of the two is
undefined); there it is NaN. -/
theorem C82_argument_of_periapsis (hn : RFinV nv nv') (he : RFinV ev ev') :
    (V3.cross nv'.rvals ev'.rvals ≠ ⟨0, 0, 0⟩ → RFin (argument_of_periapsis nv ev) (argument_of_periapsis nv' ev')) ∧
    (V3.cross nv'.rvals ev'.rvals = ⟨0, 0, 0⟩ → ReachV i (V3.cross nv ev) → NaNGrad i (argument_of_periapsis nv ev)) := by
  have hc := RFinV.cross hn he
  constructor
  · intro h0
    have hn' : (V3.cross nv' ev').rvals ≠ ⟨0, 0, 0⟩ := h0
    exact RFin.wrap (RFin.arctan2 (C82_norm hc hn') (RFinV.dot hn he) (Or.inl (rnorm_pos hn').ne'))
  · intro h0 ht
    obtain ⟨z1, z2, z3⟩ := vals_zero hc h0
    exact NaNGrad.wrap (Bad.arctan2_l (C82_norm_zero z1 z2 z3 ht).2)

theorem RFin.node (hh : RFinV hv hv') : RFinV (node_vec hv) (node_vec hv') :=
  RFinV.cross ⟨RFin.nat 0, RFin.nat 0, RFin.nat 1⟩ hh

/-- The right ascension has a finite gradient unless the node vector is zero; there it is NaN. -/
theorem C82_right_ascension (hn : RFinV nv nv') :
    (nv'.x.val ≠ 0 ∨ nv'.y.val ≠ 0 → RFin (right_ascension nv) (right_ascension nv')) ∧
    (nv'.x.val = 0 → nv'.y.val = 0 → Reach i nv.x ∨ Reach i nv.y → NaNGrad i (right_ascension nv)) := by
  constructor
  · intro h
    exact RFin.wrap (RFin.arctan2 hn.y hn.x h.symm)
  · intro hx hy hr
    refine NaNGrad.wrap ?_
    have hx' : nv.x.val = fin 0 := by rw [hn.x.1, hx]
    have hy' : nv.y.val = fin 0 := by rw [hn.y.1, hy]
    rcases hr with h | h
    · refine BadAdj.r (BadAdj.pre h fun ct _ => ?_)
      rw [hx', hy', Set.mem_singleton_iff, XR.fin_pow, XR.fin_add]
      norm_num
      cases ct with
      | fin y =>
        rw [XR.fin_div_zero, XR.infOf]; split_ifs <;> simp
      | pinf => show (if (0 : ℝ) ≤ 0 then pinf else ninf) * fin 0 = nan; simp
      | ninf => show (if (0 : ℝ) ≤ 0 then ninf else pinf) * fin 0 = nan; simp
      | nan => simp
    · refine BadAdj.l (BadAdj.pre h fun ct _ => ?_)
      rw [hx', hy', Set.mem_singleton_iff, XR.fin_pow, XR.fin_add]
      norm_num

/-- C82, `rv2coe`: which of the six elements have a finite gradient with respect to the state, for every input `i` the state
depends on. The degenerate sets are those of forward mode (C64). -/
theorem C82_rv2coe (hr : RFinV rv rv') (hv : RFinV vv vv') (hm : RFin mu mu') (k : 0 < mu'.val)
    (hh : angular_momentum rv'.rvals vv'.rvals ≠ ⟨0, 0, 0⟩) (ht : ReachV i rv ∨ ReachV i vv) :
    let o := rv2coe rv vv mu
    let o' := rv2coe rv' vv' mu'
    let h := angular_momentum rv'.rvals vv'.rvals
    let e := eccentricity_vector rv'.rvals vv'.rvals mu'.val
    RFin o.p o'.p ∧
    (e ≠ ⟨0, 0, 0⟩ → RFin o.e o'.e) ∧ (e = ⟨0, 0, 0⟩ → NaNGrad i o.e) ∧
    (h.x ≠ 0 ∨ h.y ≠ 0 → RFin o.incl o'.incl ∧ RFin o.raan o'.raan) ∧
    (h.x = 0 → h.y = 0 → NaNGrad i o.incl ∧ NaNGrad i o.raan) ∧
    (V3.cross (node_vec h) e ≠ ⟨0, 0, 0⟩ → RFin o.argp o'.argp) ∧
    (V3.cross (node_vec h) e = ⟨0, 0, 0⟩ → NaNGrad i o.argp) ∧
    (V3.cross e rv'.rvals ≠ ⟨0, 0, 0⟩ → RFin o.true_anom o'.true_anom) ∧
    (V3.cross e rv'.rvals = ⟨0, 0, 0⟩ → NaNGrad i o.true_anom) := by
  intro o o' h e
  have hr0 := (ne_of_ang hh).1
  have hH := C82_angular_momentum hr hv
  have hE := C82_eccentricity_vector hr hv hm hr0 k.ne'
  have hN := RFin.node hH
  have rH := Reach.ang ht
  have rE := Reach.ecc (mu := mu) ht
  have hnx : (node_vec (angular_momentum rv' vv')).x.val = -h.y := by
    show ((0 : ℕ) : ℝ) * h.z - ((1 : ℕ) : ℝ) * h.y = -h.y
    push_cast; ring
  have hny : (node_vec (angular_momentum rv' vv')).y.val = h.x := by
    show ((1 : ℕ) : ℝ) * h.x - ((0 : ℕ) : ℝ) * h.z = h.x
    push_cast; ring
  have hin := C82_inclination (i := i) hH hh
  have hra := C82_right_ascension (i := i) hN
  have hta := C82_true_anomaly (i := i) hr hE
  have har := C82_argument_of_periapsis (i := i) hN hE
  refine ⟨C82_semiparameter (C82_norm hH hh) hm k.ne', fun h0 => C82_norm hE h0, fun h0 => ?_,
    fun hxy => ⟨hin.1 hxy, hra.1 ?_⟩, fun hx hy => ⟨hin.2 hx hy rH.1, hra.2 ?_ ?_ ?_⟩,
    har.1, fun h0 => har.2 h0 (Reach.cross_r rE).some, hta.1, fun h0 => hta.2 h0 (Reach.cross_l rE).some⟩
  · obtain ⟨z1, z2, z3⟩ := vals_zero hE h0
    exact (C82_norm_zero z1 z2 z3 rE.some).2
  · rw [hnx, hny]
    rcases hxy with hx | hy
    · exact Or.inr hx
    · exact Or.inl (neg_ne_zero.2 hy)
  · rw [hnx, hy, neg_zero]
  · rw [hny, hx]
  · rcases rH.1 with h | h
    · exact Or.inr h.mul_r.sub_l
    · exact Or.inl h.mul_r.sub_r

/-! ### The parabola -/

/-- `1 / (1 / x)` for a traced `x` of value 0: the value comes back, every cotangent is pulled back to NaN. -/
theorem C82_recip_recip (hx : x.val = fin 0) (h : Reach i x) :
    (((1 : ℕ) : Rev ι XR) / (((1 : ℕ) : Rev ι XR) / x)).val = fin 0 ∧
    NaNGrad i (((1 : ℕ) : Rev ι XR) / (((1 : ℕ) : Rev ι XR) / x)) := by
  have h1 : (((1 : ℕ) : Rev ι XR) / x).val = pinf := by
    show ((1 : ℕ) : XR) / x.val = pinf
    rw [hx, XR.cast_fin, XR.fin_div_zero, XR.infOf_pos (by norm_num)]
  have hp : (pinf : XR) ^ 2 = pinf := by
    show XR.powNat pinf 2 = pinf
    simp only [XR.powNat, XR.fin_mul_pinf, XR.infOf_pos one_pos]; rfl
  have h2 : Bad {c | c = fin 0 ∨ c = nan} i (((1 : ℕ) : Rev ι XR) / x) := by
    refine BadAdj.pre (x := x) h fun ct hct => ?_
    rw [hx, Set.mem_singleton_iff, XR.cast_fin, XR.fin_pow, show (0 : ℝ) ^ 2 = 0 by norm_num, XR.fin_div_zero,
      XR.infOf_pos (by norm_num)]
    rcases hct with rfl | rfl <;> simp
  refine ⟨?_, BadAdj.pre (x := ((1 : ℕ) : Rev ι XR) / x) h2 fun ct _ => ?_⟩
  · show ((1 : ℕ) : XR) / (((1 : ℕ) : Rev ι XR) / x).val = fin 0
    rw [h1]; simp
  · rw [h1, hp]
    have h0 : ((1 : ℕ) : XR) / pinf = fin 0 := by simp
    rw [h0]
    cases ct with
    | fin y => left; show -(((fin y) * fin 0) * ((1 : ℕ) : XR)) = fin 0; simp
    | pinf => right; simp
    | ninf => right; simp
    | nan => right; simp

/-- At a parabolic state `alpha = 1 / semimajor_axis(...)` has the right value, `0`, and a NaN gradient, although it is
the smooth function `2 / r - v^2 / mu`, whose gradient is finite. -/
theorem C82_alpha_refuted (hr : RFinV rv rv') (hv : RFinV vv vv') (hm : RFin mu mu') (k : 0 < mu'.val)
    (k1 : rv'.rvals ≠ ⟨0, 0, 0⟩) (k2 : vv'.rvals ≠ ⟨0, 0, 0⟩) (k3 : alphaOf rv'.rvals vv'.rvals mu'.val = 0)
    (ht : ReachV i rv ∨ ReachV i vv) :
    (((1 : ℕ) : Rev ι XR) / semimajor_axis (V3.norm rv) (V3.norm vv) mu).val = fin 0 ∧
    NaNGrad i (((1 : ℕ) : Rev ι XR) / semimajor_axis (V3.norm rv) (V3.norm vv) mu) ∧
    RFin (((2 : ℕ) : Rev ι XR) / V3.norm rv - V3.norm vv ^ 2 / mu) (((2 : ℕ) : Rev ι ℝ) / V3.norm rv' - V3.norm vv' ^ 2 / mu') := by
  have n1 := C82_norm hr k1
  have n2 := C82_norm hv k2
  have h1 := (rnorm_pos k1).ne'
  have h2 := k.ne'
  have hF : RFin (((2 : ℕ) : Rev ι XR) / V3.norm rv - V3.norm vv ^ 2 / mu)
      (((2 : ℕ) : Rev ι ℝ) / V3.norm rv' - V3.norm vv' ^ 2 / mu') := by rfin
  have h0 : (((2 : ℕ) : Rev ι XR) / V3.norm rv - V3.norm vv ^ 2 / mu).val = fin 0 := by
    rw [hF.1]
    congr 1
    show ((2 : ℕ) : ℝ) / V3.norm rv'.rvals - V3.norm vv'.rvals ^ 2 / mu'.val = 0
    simpa [alphaOf, semimajor_axis] using k3
  have hR : Reach i (((2 : ℕ) : Rev ι XR) / V3.norm rv - V3.norm vv ^ 2 / mu) := by
    rcases ht with h | h
    · exact (Reach.norm h).div_r.sub_l
    · exact ((Reach.norm h).pow 1).div_l.sub_r
  obtain ⟨a1, a2⟩ := C82_recip_recip h0 hR
  exact ⟨a1, a2, hF⟩

/-- All nine gradients of a matrix are NaN at input `i`. -/
def NaNGradM (i : ι) (m : M3 (Rev ι XR)) : Prop :=
  (NaNGrad i m.r0.x ∧ NaNGrad i m.r0.y ∧ NaNGrad i m.r0.z) ∧ (NaNGrad i m.r1.x ∧ NaNGrad i m.r1.y ∧ NaNGrad i m.r1.z) ∧
    NaNGrad i m.r2.x ∧ NaNGrad i m.r2.y ∧ NaNGrad i m.r2.z

namespace NaNGradM
variable {m n : M3 (Rev ι XR)} {k : Rev ι XR}

theorem add_r (h : NaNGradM i n) : NaNGradM i (m + n) :=
  ⟨⟨h.1.1.add_r, h.1.2.1.add_r, h.1.2.2.add_r⟩, ⟨h.2.1.1.add_r, h.2.1.2.1.add_r, h.2.1.2.2.add_r⟩,
    h.2.2.1.add_r, h.2.2.2.1.add_r, h.2.2.2.2.add_r⟩

theorem sub_l (h : NaNGradM i m) : NaNGradM i (m - n) :=
  ⟨⟨h.1.1.sub_l, h.1.2.1.sub_l, h.1.2.2.sub_l⟩, ⟨h.2.1.1.sub_l, h.2.1.2.1.sub_l, h.2.1.2.2.sub_l⟩,
    h.2.2.1.sub_l, h.2.2.2.1.sub_l, h.2.2.2.2.sub_l⟩

theorem smul (h : NaNGrad i k) : NaNGradM i (k • m) :=
  ⟨⟨h.mul_l, h.mul_l, h.mul_l⟩, ⟨h.mul_l, h.mul_l, h.mul_l⟩, h.mul_l, h.mul_l, h.mul_l⟩

end NaNGradM

/-- C82: at a parabolic initial state the gradient of each of the 36 entries of `dxdx0` with respect to that state is NaN,
whatever the final state, the time interval and their tracing are. -/
theorem C82_dxdx0_parabola_refuted (R V : V3 (Rev ι XR)) (dt : Rev ι XR) (hr : RFinV rv rv') (hv : RFinV vv vv')
    (hm : RFin mu mu') (k : 0 < mu'.val) (k1 : rv'.rvals ≠ ⟨0, 0, 0⟩) (k2 : vv'.rvals ≠ ⟨0, 0, 0⟩)
    (k3 : alphaOf rv'.rvals vv'.rvals mu'.val = 0) (ht : ReachV i rv ∨ ReachV i vv) :
    let o := dxdx0 R V rv vv dt mu
    NaNGradM i o.rr ∧ NaNGradM i o.rv ∧ NaNGradM i o.vr ∧ NaNGradM i o.vv := by
  obtain ⟨a1, a2, -⟩ := C82_alpha_refuted hr hv hm k k1 k2 k3 ht
  unfold dxdx0
  simp only []
  set al := ((1 : ℕ) : Rev ι XR) / semimajor_axis (V3.norm rv) (V3.norm vv) mu with hal
  have c1 : JFun.lt ((0 : ℕ) : Rev ι XR) al = false := by
    show JFun.lt ((0 : ℕ) : XR) al.val = false
    rw [a1]; exact decide_eq_false (by simp)
  have c2 : JFun.lt al ((0 : ℕ) : Rev ι XR) = false := by
    show JFun.lt al.val ((0 : ℕ) : XR) = false
    rw [a1]; exact decide_eq_false (by simp)
  have u1 : ∀ chi : Rev ι XR, ufunc1 chi al = chi := fun chi => by
    simp only [ufunc1, c1, c2, if_false, Bool.false_eq_true]
  have u2 : ∀ chi : Rev ι XR, NaNGrad i chi → NaNGrad i (ufunc2 chi al) := fun chi h => by
    simp only [ufunc2, c1, c2, if_false, Bool.false_eq_true]
    exact (h.pow 1).div_l
  have hc : NaNGrad i (generalized_anomaly al (sigma_fn R V mu) (sigma_fn rv vv mu) dt mu) := a2.mul_l.mul_l.add_l.sub_l
  set chi := generalized_anomaly al (sigma_fn R V mu) (sigma_fn rv vv mu) dt mu
  have h1 : NaNGrad i (ufunc1 chi al) := by rw [u1]; exact hc
  have h2 := u2 chi hc
  refine ⟨NaNGradM.add_r (.smul h2.div_l.sub_r), NaNGradM.add_r (.smul ?_),
    NaNGradM.sub_l (NaNGradM.add_r (.smul ?_)), NaNGradM.add_r (.smul h2.div_l.sub_r)⟩
  · unfold lagrange_G
    first
      | exact h2.mul_r.add_r
      | exact ((h2.mul_r).add_r).div_l
  · unfold lagrange_Ft
    exact h1.mul_r.div_l

/-! ### Concrete cases -/

/-- The position and the velocity as the six inputs. -/
def inPos {β : Type} [NatCast β] (s : Fin 6 → β) : V3 (Rev (Fin 6) β) := ⟨Rev.input s 0, Rev.input s 1, Rev.input s 2⟩
/-- The velocity part. -/
def inVel {β : Type} [NatCast β] (s : Fin 6 → β) : V3 (Rev (Fin 6) β) := ⟨Rev.input s 3, Rev.input s 4, Rev.input s 5⟩

theorem inPos_fin (s : Fin 6 → ℝ) : RFinV (inPos fun j => fin (s j)) (inPos s) := ⟨C82_input s 0, C82_input s 1, C82_input s 2⟩
theorem inVel_fin (s : Fin 6 → ℝ) : RFinV (inVel fun j => fin (s j)) (inVel s) := ⟨C82_input s 3, C82_input s 4, C82_input s 5⟩

/-- Every one of the six inputs is reached. -/
theorem in_reach (s : Fin 6 → XR) (i : Fin 6) : ReachV i (inPos s) ∨ ReachV i (inVel s) := by
  fin_cases i
  · exact .inl (.inl (C82_reach s 0))
  · exact .inl (.inr (.inl (C82_reach s 1)))
  · exact .inl (.inr (.inr (C82_reach s 2)))
  · exact .inr (.inl (C82_reach s 3))
  · exact .inr (.inr (.inl (C82_reach s 4)))
  · exact .inr (.inr (.inr (C82_reach s 5)))

/-- The circular equatorial orbit `r = (1, 0, 0)`, `v = (0, 1, 0)`, `mu = 1`: `jax.grad` of five of the six elements is NaN in
all six entries, that of the semiparameter is finite. -/
example (i : Fin 6) :
    let s : Fin 6 → ℝ := ![1, 0, 0, 0, 1, 0]
    let o := rv2coe (inPos fun j => fin (s j)) (inVel fun j => fin (s j)) (Rev.const (fin 1))
    (∃ x, o.p.grad i = fin x) ∧ o.e.grad i = nan ∧ o.incl.grad i = nan ∧ o.raan.grad i = nan ∧ o.argp.grad i = nan ∧
      o.true_anom.grad i = nan := by
  intro s o
  have v1 : (inPos s).rvals = ⟨1, 0, 0⟩ := by simp [V3.rvals, inPos, Rev.input, s]
  have v2 : (inVel s).rvals = ⟨0, 1, 0⟩ := by simp [V3.rvals, inVel, Rev.input, s]
  have hh : angular_momentum (⟨1, 0, 0⟩ : V3 ℝ) ⟨0, 1, 0⟩ = ⟨0, 0, 1⟩ := by simp [angular_momentum, V3.cross]
  have hn : V3.norm (⟨1, 0, 0⟩ : V3 ℝ) = 1 := by simp [V3.norm, V3.dot]
  have he : eccentricity_vector (⟨1, 0, 0⟩ : V3 ℝ) ⟨0, 1, 0⟩ 1 = ⟨0, 0, 0⟩ := by
    rw [eccentricity_vector, hh, hn]
    ext <;> simp [V3.cross]
  have hh0 : angular_momentum (inPos s).rvals (inVel s).rvals ≠ ⟨0, 0, 0⟩ := by
    rw [v1, v2, hh]; intro h; have := congrArg V3.z h; norm_num at this
  obtain ⟨h1, -, h3, -, h5, -, h7, -, h9⟩ := C82_rv2coe (i := i) (inPos_fin s) (inVel_fin s) (C82_const 1) one_pos hh0
    (in_reach _ i)
  rw [v1, v2, show (Rev.const (1 : ℝ) : Rev (Fin 6) ℝ).val = 1 from rfl] at h3 h7 h9
  rw [v1, v2] at h5
  refine ⟨⟨_, h1.grad i⟩, (h3 he).grad, (h5 (by rw [hh]) (by rw [hh])).1.grad, (h5 (by rw [hh]) (by rw [hh])).2.grad,
    (h7 ?_).grad, (h9 ?_).grad⟩
  · rw [he]; ext <;> simp [V3.cross]
  · rw [he]; ext <;> simp [V3.cross]

/-- The parabola `r = (2, 0, 0)`, `v = (0, 1, 0)`, `mu = 1`: the gradient of `alpha` and of an entry of `dxdx0` is NaN. -/
example (R V : V3 (Rev (Fin 6) XR)) (dt : Rev (Fin 6) XR) (i : Fin 6) :
    let s : Fin 6 → ℝ := ![2, 0, 0, 0, 1, 0]
    (dxdx0 R V (inPos fun j => fin (s j)) (inVel fun j => fin (s j)) dt (Rev.const (fin 1))).vr.r0.y.grad i = nan := by
  intro s
  have v1 : (inPos s).rvals = ⟨2, 0, 0⟩ := by simp [V3.rvals, inPos, Rev.input, s]
  have v2 : (inVel s).rvals = ⟨0, 1, 0⟩ := by simp [V3.rvals, inVel, Rev.input, s]
  obtain ⟨hh, ha⟩ := parabola_state
  obtain ⟨hr, hv⟩ := ne_of_ang hh
  have := C82_dxdx0_parabola_refuted (i := i) R V dt (inPos_fin s) (inVel_fin s) (C82_const 1) one_pos (by rwa [v1]) (by rwa [v2])
    (by rw [v1, v2]; exact ha) (in_reach _ i)
  exact this.2.2.1.1.2.1.grad

/-- An inclined ellipse: the gradient of the inclination is finite in all six entries. -/
example (i : Fin 6) :
    let s : Fin 6 → ℝ := ![1, 0, 0, 0, 1, 1 / 2]
    ∃ x, (rv2coe (inPos fun j => fin (s j)) (inVel fun j => fin (s j)) (Rev.const (fin 1))).incl.grad i = fin x := by
  intro s
  have v1 : (inPos s).rvals = ⟨1, 0, 0⟩ := by simp [V3.rvals, inPos, Rev.input, s]
  have v2 : (inVel s).rvals = ⟨0, 1, 1 / 2⟩ := by simp [V3.rvals, inVel, Rev.input, s]
  have hh : angular_momentum (⟨1, 0, 0⟩ : V3 ℝ) ⟨0, 1, 1 / 2⟩ = ⟨0, -(1 / 2), 1⟩ := by
    ext <;> simp [angular_momentum, V3.cross]
  have hh0 : angular_momentum (inPos s).rvals (inVel s).rvals ≠ ⟨0, 0, 0⟩ := by
    rw [v1, v2, hh]; intro h; have := congrArg V3.z h; norm_num at this
  obtain ⟨-, -, -, h4, -⟩ := C82_rv2coe (i := i) (inPos_fin s) (inVel_fin s) (C82_const 1) one_pos hh0 (in_reach _ i)
  rw [v1, v2, hh] at h4
  exact ⟨_, (h4 (Or.inr (by norm_num))).1.grad i⟩

end Adx
