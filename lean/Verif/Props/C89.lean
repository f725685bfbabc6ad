import Verif.Props.C73
import Verif.Props.C88
import Verif.Props.C42
import Mathlib.Analysis.ODE.ExistUnique

/-! # C89: the equations of motion have one solution

Through every state away from the centre the force models have a trajectory, and only one. So a symmetry of the force and of the state is
one of the motion. -/

namespace Adx
open V3 Spec Filter Topology

/-- The same motion as long as both are defined. -/
theorem ode_unique {E : Type} [NormedAddCommGroup E] [NormedSpace ℝ E] {F : E → E} {U : Set E} {S : Set ℝ} {X Y : ℝ → E}
    (hU : IsOpen U) (hF : ContDiffOn ℝ 1 F U) (hS : IsOpen S) (hS' : IsPreconnected S)
    (hX : ∀ t ∈ S, HasDerivAt X (F (X t)) t ∧ X t ∈ U) (hY : ∀ t ∈ S, HasDerivAt Y (F (Y t)) t ∧ Y t ∈ U) {t0 : ℝ} (h0 : t0 ∈ S)
    (h : X t0 = Y t0) : ∀ t ∈ S, X t = Y t := by
  have loc : ∀ t ∈ S, X t = Y t → X =ᶠ[𝓝 t] Y := by
    intro t ht he
    obtain ⟨K, s, hs, hl⟩ := (hF.contDiffAt (hU.mem_nhds (hX t ht).2)).exists_lipschitzOnWith
    have hSt := hS.mem_nhds ht
    refine ODE_solution_unique_of_eventually (v := fun _ => F) (s := fun _ => s) (K := K) (Eventually.of_forall fun _ => hl) ?_ ?_ he
    · filter_upwards [hSt, (hX t ht).1.continuousAt.eventually hs] with u hu hus using ⟨(hX u hu).1, hus⟩
    · have hs' : s ∈ 𝓝 (Y t) := he ▸ hs
      filter_upwards [hSt, (hY t ht).1.continuousAt.eventually hs'] with u hu hus using ⟨(hY u hu).1, hus⟩
  have key : S ⊆ S ∩ {t | X =ᶠ[𝓝 t] Y} := by
    refine hS'.subset_of_closure_inter_subset (hS.inter ?_) ⟨t0, h0, h0, loc t0 h0 h⟩ ?_
    · exact isOpen_iff_mem_nhds.2 fun t ht => (eventually_eventually_nhds.2 ht)
    · rintro t ⟨hc, ht⟩
      refine ⟨ht, loc t ht ?_⟩
      have hXc := (hX t ht).1.continuousAt
      have hYc := (hY t ht).1.continuousAt
      by_contra hne
      have hev := (hXc.sub hYc).eventually_ne (sub_ne_zero.2 hne)
      obtain ⟨u, hu, hun⟩ := ((mem_closure_iff_frequently.1 hc).and_eventually hev).exists
      exact hun (sub_eq_zero.2 hu.2.eq_of_nhds)
  exact fun t ht => (key ht).2.eq_of_nhds

section
variable {F : ℝ → State ℝ → Args ℝ → Except PyErr (V3 ℝ)} {args : Args ℝ}

/-- A motion under a force, on the times `S`. -/
structure Motion (F : ℝ → State ℝ → Args ℝ → Except PyErr (V3 ℝ)) (args : Args ℝ) (S : Set ℝ) (r v : ℝ → V3 ℝ) : Prop where
  /-- away from the attracting centre -/
  avoid : ∀ s ∈ S, r s ≠ ⟨0, 0, 0⟩
  /-- kinematics -/
  pos : ∀ s ∈ S, HasDerivV r (v s) s
  /-- dynamics -/
  vel : ∀ s ∈ S, ∃ a rest, F s ⟨r s, rest⟩ args = .ok a ∧ HasDerivV v a s

theorem Motion.field (hF : SmoothForce F args) {S : Set ℝ} {r v : ℝ → V3 ℝ} (h : Motion F args S r v) {s : ℝ} (hs : s ∈ S) :
    HasDerivV v (accOf F args (r s)) s := by
  obtain ⟨a, rest, e, hd⟩ := h.vel s hs
  rw [hF.ok, Except.ok.injEq] at e
  rw [e]; exact hd

theorem domain_open : IsOpen ({p : ℝ × ℝ × ℝ | p ≠ 0} ×ˢ (Set.univ : Set (ℝ × ℝ × ℝ))) := isOpen_ne.prod isOpen_univ

theorem field_smooth (hF : SmoothForce F args) :
    ContDiffOn ℝ 1 (fieldE (accOf F args)) ({p : ℝ × ℝ × ℝ | p ≠ 0} ×ˢ (Set.univ : Set (ℝ × ℝ × ℝ))) :=
  contDiff_snd.contDiffOn.prodMk (hF.smooth.comp contDiff_fst.contDiffOn fun _ he => he.1)

/-- C89: through every state away from the centre there is a motion, for some time forwards and backwards. -/
theorem C89_exists (hF : SmoothForce F args) {r0 : V3 ℝ} (hr : r0 ≠ ⟨0, 0, 0⟩) (v0 : V3 ℝ) (t0 : ℝ) :
    ∃ ε > 0, ∃ r v : ℝ → V3 ℝ, r t0 = r0 ∧ v t0 = v0 ∧ Motion F args (Set.Ioo (t0 - ε) (t0 + ε)) r v := by
  have hc : ContDiffAt ℝ 1 (fieldE (accOf F args)) (toE (r0, v0)) :=
    (field_smooth hF).contDiffAt (domain_open.mem_nhds ⟨toP_ne hr, Set.mem_univ _⟩)
  obtain ⟨X, hX0, ε, hε, hX⟩ := hc.exists_forall_mem_closedBall_exists_eq_forall_mem_Ioo_hasDerivAt₀ t0
  have hcont : ContinuousAt X t0 := (hX t0 ⟨by linarith, by linarith⟩).continuousAt
  have hne : ∀ᶠ t in 𝓝 t0, X t ∈ {p : ℝ × ℝ × ℝ | p ≠ 0} ×ˢ (Set.univ : Set (ℝ × ℝ × ℝ)) :=
    hcont.eventually (domain_open.mem_nhds (by rw [hX0]; exact ⟨toP_ne hr, Set.mem_univ _⟩))
  obtain ⟨δ, hδ, hball⟩ := Metric.eventually_nhds_iff_ball.1 hne
  refine ⟨min ε δ, lt_min hε hδ, fun t => ofP (X t).1, fun t => ofP (X t).2, congrArg (fun e => ofP e.1) hX0, congrArg (fun e => ofP e.2) hX0, ?_⟩
  have hd : ∀ s ∈ Set.Ioo (t0 - min ε δ) (t0 + min ε δ), HasDerivAt X (fieldE (accOf F args) (X s)) s ∧ (X s).1 ≠ 0 := by
    intro s hs
    have h1 := min_le_left ε δ
    have h2 := min_le_right ε δ
    refine ⟨hX s ⟨by linarith [hs.1], by linarith [hs.2]⟩, (hball s ?_).1⟩
    rw [Real.ball_eq_Ioo]; exact ⟨by linarith [hs.1], by linarith [hs.2]⟩
  refine ⟨fun s hs h0 => (hd s hs).2 ?_, fun s hs => ?_, fun s hs => ⟨_, [], hF.ok _ _, ?_⟩⟩
  · have : (X s).1 = toP (ofP (X s).1) := rfl
    rw [this, h0]; rfl
  · have := (hd s hs).1
    exact ⟨this.fst.fst, this.fst.snd.fst, this.fst.snd.snd⟩
  · have := (hd s hs).1
    exact ⟨this.snd.fst, this.snd.snd.fst, this.snd.snd.snd⟩

/-- C89: two motions that meet in one state are the same. -/
theorem C89_unique (hF : SmoothForce F args) {S : Set ℝ} (hS : IsOpen S) (hS' : IsPreconnected S) {r v r' v' : ℝ → V3 ℝ}
    (h : Motion F args S r v) (h' : Motion F args S r' v') {t0 : ℝ} (h0 : t0 ∈ S) (er : r t0 = r' t0) (ev : v t0 = v' t0) :
    ∀ t ∈ S, r t = r' t ∧ v t = v' t := by
  have mk : ∀ {r v : ℝ → V3 ℝ}, Motion F args S r v → ∀ t ∈ S, HasDerivAt (fun t => toE (r t, v t))
      (fieldE (accOf F args) (toE (r t, v t))) t ∧ toE (r t, v t) ∈ {p : ℝ × ℝ × ℝ | p ≠ 0} ×ˢ (Set.univ : Set (ℝ × ℝ × ℝ)) :=
    fun m t ht => ⟨(hasDerivAt_toP (m.pos t ht)).prodMk (hasDerivAt_toP (m.field hF ht)), toP_ne (m.avoid t ht), Set.mem_univ _⟩
  intro t ht
  have := ode_unique domain_open (field_smooth hF) hS hS' (mk h) (mk h') h0 (by rw [er, ev]) t ht
  exact ⟨congrArg (fun e : (ℝ × ℝ × ℝ) × (ℝ × ℝ × ℝ) => ofP e.1) this,
    congrArg (fun e : (ℝ × ℝ × ℝ) × (ℝ × ℝ × ℝ) => ofP e.2) this⟩

/-- C89: a linear symmetry of the force carries motions into motions; if it fixes one state, it fixes the motion through it. -/
theorem C89_symmetry (hF : SmoothForce F args) {A : V3 ℝ → V3 ℝ} (hA0 : ∀ p, p ≠ ⟨0, 0, 0⟩ → A p ≠ ⟨0, 0, 0⟩)
    (hA : ∀ f f' s, HasDerivV f f' s → HasDerivV (fun t => A (f t)) (A f') s)
    (hsym : ∀ p, accOf F args (A p) = A (accOf F args p)) {S : Set ℝ} {r v : ℝ → V3 ℝ} (h : Motion F args S r v) :
    Motion F args S (fun t => A (r t)) (fun t => A (v t)) ∧
    (IsOpen S → IsPreconnected S → ∀ t0 ∈ S, A (r t0) = r t0 → A (v t0) = v t0 → ∀ t ∈ S, A (r t) = r t ∧ A (v t) = v t) := by
  have hm : Motion F args S (fun t => A (r t)) (fun t => A (v t)) := by
    refine ⟨fun s hs => hA0 _ (h.avoid s hs), fun s hs => hA _ _ _ (h.pos s hs), fun s hs => ⟨_, [], hF.ok _ _, ?_⟩⟩
    change HasDerivV _ (accOf F args (A (r s))) s
    rw [hsym]
    exact hA _ _ _ (h.field hF hs)
  exact ⟨hm, fun hS hS' t0 h0 er ev => C89_unique hF hS hS' hm h h0 er ev⟩

/-- C89: motions can be run backwards. -/
theorem C89_reverse (hF : SmoothForce F args) {S : Set ℝ} {r v : ℝ → V3 ℝ} (h : Motion F args S r v) :
    Motion F args {t | -t ∈ S} (fun t => r (-t)) (fun t => -v (-t)) := by
  have neg : ∀ {f : ℝ → V3 ℝ} {f' : V3 ℝ} {s : ℝ}, HasDerivV f f' (-s) → HasDerivV (fun t => f (-t)) (-f') s := by
    intro f f' s h
    have hn := (hasDerivAt_id s).neg
    refine ⟨(h.x.comp s hn).congr_deriv ?_, (h.y.comp s hn).congr_deriv ?_, (h.z.comp s hn).congr_deriv ?_⟩ <;> simp
  refine ⟨fun s hs => h.avoid _ hs, fun s hs => neg (h.pos _ hs), fun s hs => ⟨_, [], hF.ok _ _, ?_⟩⟩
  have := neg (h.field hF hs)
  exact ⟨this.x.neg.congr_deriv (by simp), this.y.neg.congr_deriv (by simp), this.z.neg.congr_deriv (by simp)⟩

/-- C89: a motion that comes back to a state of its past repeats itself. -/
theorem C89_periodic (hF : SmoothForce F args) {r v : ℝ → V3 ℝ} (h : Motion F args Set.univ r v) {t0 T : ℝ} (er : r (t0 + T) = r t0)
    (ev : v (t0 + T) = v t0) (t : ℝ) : r (t + T) = r t ∧ v (t + T) = v t := by
  have add : ∀ {f : ℝ → V3 ℝ} {f' : V3 ℝ} {s : ℝ}, HasDerivV f f' (s + T) → HasDerivV (fun t => f (t + T)) f' s := by
    intro f f' s h
    exact ⟨h.x.comp_add_const s T, h.y.comp_add_const s T, h.z.comp_add_const s T⟩
  have hm : Motion F args Set.univ (fun t => r (t + T)) (fun t => v (t + T)) :=
    ⟨fun s _ => h.avoid _ trivial, fun s _ => add (h.pos _ trivial), fun s _ => ⟨_, [], hF.ok _ _, add (h.field hF trivial)⟩⟩
  exact C89_unique hF isOpen_univ isPreconnected_univ hm h (t0 := t0) trivial er ev t trivial

end

/-- C89: the motion of the point mass through a state with non-zero angular momentum is the one `kepler` computes. -/
theorem C89_kepler {args : Args ℝ} {mu : ℝ} (hm : args "mu" = some mu) (hmu : 0 < mu) {S : Set ℝ} (hS : IsOpen S) (hS' : IsPreconnected S)
    {r v : ℝ → V3 ℝ} (h : Motion point_mass_grav args S r v) (h0 : 0 ∈ S) (hh : angular_momentum (r 0) (v 0) ≠ ⟨0, 0, 0⟩) :
    ∀ t ∈ S, (r t, v t) = exactProp (r 0) (v 0) mu t := by
  obtain ⟨e, hk⟩ := C21_solves_two_body hmu hh
  have hm' : Motion point_mass_grav args S (fun t => (exactProp (r 0) (v 0) mu t).1) (fun t => (exactProp (r 0) (v 0) mu t).2) :=
    ⟨fun s _ => (hk s trivial).1, fun s _ => (hk s trivial).2.1, fun s _ => by
      obtain ⟨a, e1, e2⟩ := C21_acceleration_is_point_mass_grav hmu hh s [] args hm
      exact ⟨a, [], e1, e2⟩⟩
  intro t ht
  obtain ⟨e1, e2⟩ := C89_unique (smooth_point_mass hm) hS hS' h hm' h0 (by rw [e]) (by rw [e]) t ht
  exact Prod.ext e1 e2

section
variable {args : Args ℝ} {mu J2 J3 J4 R : ℝ} (hm : args "mu" = some mu) (h2 : args "J2" = some J2) (h4 : args "J4" = some J4)
  (hR : args "R_eq" = some R)
include hm h2 h4 hR

theorem smooth_zonal (h3 : args "J3" = some J3) : SmoothForce zonalForce args :=
  (((smooth_point_mass hm).add (smooth_j2 hm hR h2)).add (smooth_j3 hm hR h3)).add (smooth_j4 hm hR h4)

theorem accOf_zonal (h3 : args "J3" = some J3) (p : V3 ℝ) :
    accOf zonalForce args p = accOf point_mass_grav args p + accOf j2_acc args p + accOf j3_acc args p + accOf j4_acc args p := by
  have e := (smooth_zonal hm h2 h4 hR h3).ok 0 ⟨p, []⟩
  simp only [zonalForce, addAcc, (smooth_point_mass hm).ok, (smooth_j2 hm hR h2).ok, (smooth_j3 hm hR h3).ok, (smooth_j4 hm hR h4).ok,
    Bind.bind, Except.bind, pure, Except.pure, Except.ok.injEq] at e
  exact e.symm

/-- C89: with `J3 = 0` a motion once in the equatorial plane, and moving in it, stays there. -/
theorem C89_equatorial (h3 : args "J3" = some 0) {S : Set ℝ} (hS : IsOpen S) (hS' : IsPreconnected S) {r v : ℝ → V3 ℝ}
    (h : Motion zonalForce args S r v) {t0 : ℝ} (h0 : t0 ∈ S) (er : (r t0).z = 0) (ev : (v t0).z = 0) :
    ∀ t ∈ S, (r t).z = 0 ∧ (v t).z = 0 := by
  have hF := smooth_zonal hm h2 h4 hR h3
  have hsym := C89_symmetry hF (A := mirror) (fun p hp h => hp ?_) (fun f f' s hf => ⟨hf.x, hf.y, hf.z.neg⟩) (fun p => ?_) h
  · intro t ht
    obtain ⟨e1, e2⟩ := hsym.2 hS hS' t0 h0 (by ext <;> simp [mirror, er]) (by ext <;> simp [mirror, ev]) t ht
    have e1 := congrArg V3.z e1
    have e2 := congrArg V3.z e2
    simp only [mirror] at e1 e2
    exact ⟨by linarith, by linarith⟩
  · have hx := congrArg V3.x h; have hy := congrArg V3.y h; have hz := congrArg V3.z h
    simp only [mirror] at hx hy hz
    ext
    · exact hx
    · exact hy
    · simpa using hz
  · obtain ⟨m0, m2, m3, m4⟩ := C42_mirror (args := args) (fun t rest p => (smooth_point_mass hm).ok t ⟨p, rest⟩)
      (fun t rest p => (smooth_j2 hm hR h2).ok t ⟨p, rest⟩) (fun t rest p => (smooth_j3 hm hR h3).ok t ⟨p, rest⟩)
      (fun t rest p => (smooth_j4 hm hR h4).ok t ⟨p, rest⟩) p
    have z3 : ∀ p, accOf j3_acc args p = ⟨0, 0, 0⟩ := by
      intro p
      simp [accOf, j3_acc, Args.get, hm, h3, hR, Bind.bind, Except.bind, pure, Except.pure]
    rw [accOf_zonal hm h2 h4 hR h3, accOf_zonal hm h2 h4 hR h3, m0, m2, m4, z3, z3]
    ext <;> simp [mirror]
    ring

/-- C89: a motion once on the polar axis, and moving along it, stays there. -/
theorem C89_axis (h3 : args "J3" = some J3) {S : Set ℝ} (hS : IsOpen S) (hS' : IsPreconnected S) {r v : ℝ → V3 ℝ}
    (h : Motion zonalForce args S r v) {t0 : ℝ} (h0 : t0 ∈ S) (hx : (r t0).x = 0) (hy : (r t0).y = 0) (hvx : (v t0).x = 0)
    (hvy : (v t0).y = 0) : ∀ t ∈ S, (r t).x = 0 ∧ (r t).y = 0 ∧ (v t).x = 0 ∧ (v t).y = 0 := by
  have hF := smooth_zonal hm h2 h4 hR h3
  have hpi : ∀ p : V3 ℝ, M3.mulVec (rotmat3dz Real.pi) p = ⟨-p.x, -p.y, p.z⟩ := by
    intro p; ext <;> simp [M3.mulVec, rotmat3dz, V3.dot]
  have hsym := C89_symmetry hF (A := fun p => M3.mulVec (rotmat3dz Real.pi) p) (fun p hp h => hp ?_)
    (fun f f' s hf => ?_) (fun p => ?_) h
  · intro t ht
    obtain ⟨e1, e2⟩ := hsym.2 hS hS' t0 h0 (by rw [hpi]; ext <;> simp [hx, hy]) (by rw [hpi]; ext <;> simp [hvx, hvy]) t ht
    rw [hpi] at e1 e2
    have a1 := congrArg V3.x e1; have a2 := congrArg V3.y e1; have a3 := congrArg V3.x e2; have a4 := congrArg V3.y e2
    simp only at a1 a2 a3 a4
    exact ⟨by linarith, by linarith, by linarith, by linarith⟩
  · rw [hpi] at h
    have hx := congrArg V3.x h; have hy := congrArg V3.y h; have hz := congrArg V3.z h
    simp only at hx hy hz
    ext
    · simpa using hx
    · simpa using hy
    · exact hz
  · simp only [hpi]; exact ⟨hf.x.neg, hf.y.neg, hf.z⟩
  · obtain ⟨m0, m2, m3, m4⟩ := C42_axial (args := args) (fun t rest p => (smooth_point_mass hm).ok t ⟨p, rest⟩)
      (fun t rest p => (smooth_j2 hm hR h2).ok t ⟨p, rest⟩) (fun t rest p => (smooth_j3 hm hR h3).ok t ⟨p, rest⟩)
      (fun t rest p => (smooth_j4 hm hR h4).ok t ⟨p, rest⟩) Real.pi p
    rw [accOf_zonal hm h2 h4 hR h3, accOf_zonal hm h2 h4 hR h3, m0, m2, m3, m4]
    simp only [hpi]
    ext <;> simp <;> ring

/-- C89: the motions of C41 and C88 exist through every state away from the centre. -/
theorem C89_zonal_exists (h3 : args "J3" = some J3) {r0 : V3 ℝ} (hr : r0 ≠ ⟨0, 0, 0⟩) (v0 : V3 ℝ) (t0 : ℝ) :
    ∃ ε > 0, ∃ r v : ℝ → V3 ℝ, r t0 = r0 ∧ v t0 = v0 ∧ ZonalTrajectory args (Set.Ioo (t0 - ε) (t0 + ε)) r v := by
  have hF := smooth_zonal hm h2 h4 hR h3
  obtain ⟨ε, hε, r, v, er, ev, h⟩ := C89_exists hF hr v0 t0
  refine ⟨ε, hε, r, v, er, ev, h.avoid, h.pos, fun s hs => ⟨_, _, _, _, [], (smooth_point_mass hm).ok _ _, (smooth_j2 hm hR h2).ok _ _,
    (smooth_j3 hm hR h3).ok _ _, (smooth_j4 hm hR h4).ok _ _, ?_⟩⟩
  have := h.field hF hs
  rw [accOf_zonal hm h2 h4 hR h3] at this
  exact this

end

/-- Non-vacuity of C88_polar: a polar motion with all three zonal terms, whose angular momentum does not vanish. -/
example : ∃ (r v : ℝ → V3 ℝ) (ε : ℝ) (args : Args ℝ), 0 < ε ∧ ZonalTrajectory args (Set.Ioo (-ε) ε) r v ∧ args "J2" = some 1 ∧
    (∀ s ∈ Set.Ioo (-ε) ε, angular_momentum (r s) (v s) ≠ ⟨0, 0, 0⟩) ∧ (angular_momentum (r 0) (v 0)).z = 0 := by
  obtain ⟨ε, hε, r, v, er, ev, h⟩ := C89_zonal_exists (args := fun _ => some 1) (mu := 1) (J2 := 1) (J3 := 1) (J4 := 1) (R := 1)
    rfl rfl rfl rfl rfl (r0 := ⟨1, 0, 0⟩) (by simp) ⟨0, 0, 1⟩ 0
  simp only [zero_sub, zero_add] at h
  have hd := ((h.pos 0 ⟨by linarith, hε⟩).cross (h.vel 0 ⟨by linarith, hε⟩).choose_spec.choose_spec.choose_spec.choose_spec.choose_spec.2.2.2.2)
  have hne : ∀ᶠ s in 𝓝 (0 : ℝ), (V3.cross (r s) (v s)).y ≠ 0 := by
    refine hd.y.continuousAt.eventually_ne ?_
    rw [er, ev]; simp [V3.cross]
  obtain ⟨δ, hδ, hball⟩ := Metric.eventually_nhds_iff_ball.1 hne
  refine ⟨r, v, min ε δ, fun _ => some 1, lt_min hε hδ, ⟨fun s hs => ?_, fun s hs => ?_, fun s hs => ?_⟩, rfl, fun s hs h0 => ?_, ?_⟩
  · exact h.avoid s ⟨by linarith [hs.1, min_le_left ε δ], by linarith [hs.2, min_le_left ε δ]⟩
  · exact h.pos s ⟨by linarith [hs.1, min_le_left ε δ], by linarith [hs.2, min_le_left ε δ]⟩
  · exact h.vel s ⟨by linarith [hs.1, min_le_left ε δ], by linarith [hs.2, min_le_left ε δ]⟩
  · refine hball s ?_ (congrArg V3.y h0)
    rw [Real.ball_eq_Ioo]; exact ⟨by linarith [hs.1, min_le_right ε δ], by linarith [hs.2, min_le_right ε δ]⟩
  · rw [er, ev]; simp [angular_momentum, V3.cross]

end Adx
