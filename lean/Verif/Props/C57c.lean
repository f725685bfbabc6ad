import Verif.Lemmas.CowellScale
import Verif.Props.C57b
import Verif.Props.C74

/-! # C57: the Cowell propagators in other units

With a Runge–Kutta solver `fixed_steps` commutes with a change of units as long as diffrax's clipping tolerance
(`1e-6` in float32, `1e-10` in float64, a time) is converted too. It is a fixed number, so in fact the result depends on the
unit of time: a flight shorter than the tolerance is made in two steps, whatever step size is asked for. -/

namespace Adx
open V3 Spec

/-- A state in the new units. -/
noncomputable def unitState (u : Units) (y : V3 ℝ × V3 ℝ) : V3 ℝ × V3 ℝ := (u.pos y.1, u.vel y.2)

/-- The derivative of a state in the new units. -/
noncomputable def unitRate (u : Units) (y : V3 ℝ × V3 ℝ) : V3 ℝ × V3 ℝ := (u.vel y.1, (u.L / u.T ^ 2) • y.2)

section
variable (u : Units) {o o' : OrbDynx ℝ (V3 ℝ × V3 ℝ)} {tb : Tableau ℝ}
  {interp interp' : ℝ → ℝ → V3 ℝ × V3 ℝ → V3 ℝ × V3 ℝ → ℝ → V3 ℝ × V3 ℝ}
  {err err' : ℝ → ℝ → V3 ℝ × V3 ℝ → V3 ℝ × V3 ℝ → V3 ℝ × V3 ℝ}

/-- The dynamics `o'` are `o` in the new units. -/
structure SameDynamics (o o' : OrbDynx ℝ (V3 ℝ × V3 ℝ)) : Prop where
  /-- the vector field -/
  terms : ∀ t y, o'.terms (u.T * t) (unitState u y) o'.args = (o.terms t y o.args).map (unitRate u)
  /-- the event function, a length -/
  event : (o.event = none ∧ o'.event = none) ∨ ∃ e e', o.event = some e ∧ o'.event = some e' ∧
    ∀ t y, e' (u.T * t) (unitState u y) o'.args = (e t y o.args).map (u.L * ·)

theorem SameDynamics.callScale {γ γ' : Type} {θ : γ → γ'} (h : SameDynamics u o o')
    (hi : ∀ t0 t1 a b t, interp' (u.T * t0) (u.T * t1) (unitState u a) (unitState u b) (u.T * t)
      = unitState u (interp t0 t1 a b t))
    (he : ∀ t0 t1 a b, err' (u.T * t0) (u.T * t1) (unitState u a) (unitState u b) = unitState u (err t0 t1 a b))
    {ctrl : Controller ℝ (V3 ℝ × V3 ℝ) γ} {ctrl' : Controller ℝ (V3 ℝ × V3 ℝ) γ'}
    (hc : ControllerScale u.T (unitState u) (unitRate u) θ ctrl ctrl') (sa : SaveAt ℝ) (dt0 : Option ℝ) (ms : Option ℕ)
    (t1 : ℝ) (x0 : V3 ℝ × V3 ℝ) :
    CallScale u.T u.L (unitState u) (unitRate u) (unitRate u) θ (cowellCall o x0 t1 sa dt0 ms (rkSolver tb interp err) ctrl)
      (cowellCall o' (unitState u x0) (u.T * t1) (sa.scale u.T) (dt0.map (u.T * ·)) ms (rkSolver tb interp' err') ctrl') where
  pos := u.T_pos
  pos' := u.L_pos
  terms := h.terms
  solver := by
    have hT := u.T_pos.ne'
    refine rkSolver_scale (fun a b => Prod.ext ?_ ?_) (fun k a => Prod.ext ?_ ?_) tb hi he hT
    all_goals
      simp only [unitState, unitRate, Units.pos, Units.vel]
      ext <;> simp <;> field_simp
  ctrl := hc
  t0 := by show ((0 : ℕ) : ℝ) = u.T * ((0 : ℕ) : ℝ); simp
  t1 := rfl
  dt0 := rfl
  y0 := rfl
  max_steps := rfl
  saveat := rfl
  event := h.event

/-- C57, `fixed_steps`: in the new units, with step, end time and clipping tolerance converted, the run is the same: same
number of steps, same event, times and states converted. -/
theorem C57_fixed_steps (h : SameDynamics u o o')
    (hi : ∀ t0 t1 a b t, interp' (u.T * t0) (u.T * t1) (unitState u a) (unitState u b) (u.T * t)
      = unitState u (interp t0 t1 a b t))
    (he : ∀ t0 t1 a b, err' (u.T * t0) (u.T * t1) (unitState u a) (unitState u b) = unitState u (err t0 t1 a b))
    (ctol t1 dt : ℝ) (ms : Option ℕ) (x0 : V3 ℝ × V3 ℝ) :
    fixed_steps (u.T * ctol) o' (unitState u x0) (u.T * t1) (u.T * dt) (rkSolver tb interp' err') ms
      = (fixed_steps ctol o x0 t1 dt (rkSolver tb interp err) ms).map (Except.map (Sol.scale u.T (unitState u))) :=
  (h.callScale u hi he (constant_scale _ _) { t0 := true, steps := true } (some dt) ms t1 x0).diffeqsolve ctol

/-- C57, the other propagators, for every controller that decides alike in the new units. -/
theorem C57_adaptive {γ γ' : Type} {θ : γ → γ'} (h : SameDynamics u o o')
    (hi : ∀ t0 t1 a b t, interp' (u.T * t0) (u.T * t1) (unitState u a) (unitState u b) (u.T * t)
      = unitState u (interp t0 t1 a b t))
    (he : ∀ t0 t1 a b, err' (u.T * t0) (u.T * t1) (unitState u a) (unitState u b) = unitState u (err t0 t1 a b))
    {ctrl : Controller ℝ (V3 ℝ × V3 ℝ) γ} {ctrl' : Controller ℝ (V3 ℝ × V3 ℝ) γ'}
    (hc : ControllerScale u.T (unitState u) (unitRate u) θ ctrl ctrl') (ctol t1 : ℝ) (ms : Option ℕ) (ts : List ℝ)
    (x0 : V3 ℝ × V3 ℝ) :
    adaptive_steps (u.T * ctol) o' (unitState u x0) (u.T * t1) (rkSolver tb interp' err') ctrl' ms
      = (adaptive_steps ctol o x0 t1 (rkSolver tb interp err) ctrl ms).map (Except.map (Sol.scale u.T (unitState u))) ∧
    custom_steps (u.T * ctol) o' (unitState u x0) (u.T * t1) (ts.map (u.T * ·)) (rkSolver tb interp' err') ctrl'
      = (custom_steps ctol o x0 t1 ts (rkSolver tb interp err) ctrl).map (Except.map (Sol.scale u.T (unitState u))) ∧
    to_final (u.T * ctol) o' (unitState u x0) (u.T * t1) (rkSolver tb interp' err') ctrl'
      = (to_final ctol o x0 t1 (rkSolver tb interp err) ctrl).map (Except.map (Sol.scale u.T (unitState u))) :=
  ⟨(h.callScale u hi he hc { t0 := true, steps := true } none ms t1 x0).diffeqsolve ctol,
    (h.callScale u hi he hc { ts := ts } none none t1 x0).diffeqsolve ctol,
    (h.callScale u hi he hc { t1 := true } none (some 4096) t1 x0).diffeqsolve ctol⟩

end

/-- The forces of the library are the same dynamics in all units: point mass with `J2`, `J3`, `J4`, with or without the radius
event. -/
theorem C57_same_dynamics (u : Units) {o o' : OrbDynx ℝ (V3 ℝ × V3 ℝ)} {mu J2 J3 J4 R rmin : ℝ}
    (ho : o.terms = secondOrder (addAcc (addAcc (addAcc point_mass_grav j2_acc) j3_acc) j4_acc)) (ho' : o'.terms = o.terms)
    (hmu : o.args "mu" = some mu) (h2 : o.args "J2" = some J2) (h3 : o.args "J3" = some J3) (h4 : o.args "J4" = some J4)
    (hR : o.args "R_eq" = some R) (hr : o.args "rmin" = some rmin)
    (hmu' : o'.args "mu" = some (u.grav mu)) (h2' : o'.args "J2" = some J2) (h3' : o'.args "J3" = some J3)
    (h4' : o'.args "J4" = some J4) (hR' : o'.args "R_eq" = some (u.L * R)) (hr' : o'.args "rmin" = some (u.L * rmin))
    (he : o'.event = o.event) (he' : o.event = none ∨ o.event = some radiusEvent) : SameDynamics u o o' where
  terms t y := by
    have hL := u.L_pos.ne'
    have hT := u.T_pos.ne'
    obtain ⟨r, v⟩ := y
    rw [ho', ho]
    simp only [secondOrder, addAcc, unitState]
    rcases eq_or_ne (V3.norm r) 0 with h0 | h0
    · have hr0 : r = ⟨0, 0, 0⟩ := by
        by_contra h; exact ((norm_pos r).2 h).ne' h0
      subst hr0
      simp only [point_mass_grav, j2_acc, j3_acc, j4_acc, Args.get, hmu, h2, h3, h4, hR, hmu', h2', h3', h4', hR', bind,
        Except.bind, pure, Except.pure, Except.map, units_norm_pos, h0, mul_zero, unitRate]
      refine congrArg Except.ok (Prod.ext rfl ?_)
      ext <;> simp [Units.pos]
    · obtain ⟨a0, a2, a3, a4, e0, e0', e2, e2', e3, e3', e4, e4'⟩ := C57_accelerations u hmu h2 h3 h4 hR hmu' h2' h3' h4' hR' t h0
        [v.x, v.y, v.z] [(u.vel v).x, (u.vel v).y, (u.vel v).z]
      simp only [Units.time] at e0' e2' e3' e4'
      simp only [e0, e2, e3, e4, e0', e2', e3', e4', bind, Except.bind, pure, Except.pure, Except.map, unitRate]
      refine congrArg Except.ok (Prod.ext rfl ?_)
      ext <;> simp <;> ring
  event := by
    rcases he' with h | h
    · exact .inl ⟨h, by rw [he, h]⟩
    · refine .inr ⟨_, _, h, by rw [he, h], fun t y => ?_⟩
      simp only [radiusEvent, radius_islow, Args.get, hr, hr', unitState, units_norm_pos]
      exact congrArg Except.ok (by ring)

/-- A flight shorter than the clipping tolerance takes two steps, however small the step asked for. -/
theorem C57_two_steps {Y σ : Type} {o : OrbDynx ℝ Y} {x0 : Y} {t1 dt ctol : ℝ} {solver : Solver ℝ Y σ} {m : ℕ} {v : Y}
    (hev : o.event = none) (hf : o.terms 0 x0 o.args = .ok v) (hdt : 0 < dt) (hd1 : dt < t1) (ht : t1 ≤ ctol) (hm : 2 ≤ m) :
    ∃ s, fixed_steps ctol o x0 t1 dt solver (some m) = some (.ok s) ∧ s.num_steps = 2 ∧
      s.saved.map Prod.fst = [0, dt, t1] := by
  set c := fixedCall o x0 t1 dt (some m) solver with hc
  have c0 : c.t0 = 0 := Nat.cast_zero
  obtain ⟨f, hf'⟩ : ∃ f, traceTerms c = .ok f := by
    simp only [traceTerms, bind, Except.bind, pure, Except.pure]
    rw [show c.terms c.t0 c.y0 c.args = .ok v by rw [c0]; exact hf]
    exact ⟨_, rfl⟩
  have hg : traceEvent c = .ok none := by
    simp only [traceEvent]; rw [show c.event = none from hev]
  have h0 : jmin (0 + dt) t1 = dt := by simp [jmin, hd1]
  have h1 : jmin dt t1 = dt := by simp [jmin, hd1]
  have h2 : jmin t1 t1 = t1 := by simp [jmin]
  have h3 : clipToEnd ctol dt (dt + dt) t1 true = t1 := by
    simp only [clipToEnd, lt_real]; rw [if_pos (by simp; linarith)]; rfl
  let b : Core ℝ Y σ ℝ × Save ℝ Y → Core ℝ Y σ ℝ × Save ℝ Y := fun s =>
    let s' := coreStep ctol c f none s.1
    (s', saveStep c.saveat s' s.2)
  let s0 : Core ℝ Y σ ℝ × Save ℝ Y := (coreInit c f none (0 + dt, dt), ([(c.t0, c.y0)], []))
  have a0 : s0.1.tprev = 0 ∧ s0.1.tnext = dt ∧ s0.1.ctrl = dt ∧ s0.1.num_steps = 0 ∧ s0.1.event = false ∧
      s0.2.1.map Prod.fst = [0] ∧ s0.2.2 = [] := by
    refine ⟨c0, h0, rfl, rfl, rfl, ?_, rfl⟩
    show [c.t0] = [0]; rw [c0]
  have step : ∀ s : Core ℝ Y σ ℝ × Save ℝ Y, s.1.ctrl = dt → s.2.2 = [] →
      (b s).1.tprev = jmin s.1.tnext t1 ∧ (b s).1.tnext = clipToEnd ctol (jmin s.1.tnext t1) (s.1.tnext + dt) t1 true ∧
      (b s).1.ctrl = dt ∧ (b s).1.num_steps = s.1.num_steps + 1 ∧ (b s).1.event = false ∧
      (b s).2.1.map Prod.fst = s.2.1.map Prod.fst ++ [jmin s.1.tnext t1] ∧ (b s).2.2 = [] := by
    intro s hs hw
    obtain ⟨s, w, q⟩ := s
    simp only at hs hw
    subst hw
    have : coreStep ctol c f none s = _ := rfl
    simp [b, coreStep, hc, fixedCall, constantStepSize, saveStep, hs]
  obtain ⟨p1, p2, p3, p4, p5, p6, p7⟩ := a0
  obtain ⟨q1, q2, q3, q4, q5, q6, q7⟩ := step s0 p3 p7
  obtain ⟨r1, r2, r3, r4, r5, r6, r7⟩ := step (b s0) q3 q7
  rw [p2, h1] at q1 q2 q6
  rw [h3] at q2
  rw [q2, h2] at r1 r6
  rw [p6] at q6
  rw [q6] at r6
  have hw := whileLoop_of_iterate (fun s => loopCond c.t1 c.max_steps s.1) b 2 s0
    (by
      intro j hj
      rcases j with _ | _ | j
      · show loopCond t1 (some m) s0.1 = true
        simp [loopCond, running, p1, p4, p5]
        exact ⟨by linarith, by omega⟩
      · show loopCond t1 (some m) (b s0).1 = true
        simp [loopCond, running, q1, q4, q5, p4]
        exact ⟨hd1, by omega⟩
      · omega)
    (by
      show loopCond t1 (some m) (b (b s0)).1 = false
      simp [loopCond, running, r1])
  refine ⟨⟨(b (b s0)).2.1, false, 2⟩, ?_, rfl, r6⟩
  unfold fixed_steps diffeqsolve
  rw [← hc, hf', hg]
  rw [if_neg (by simp [hc, fixedCall]), if_neg (by simp [hc, fixedCall, tsOk])]
  show diffeqLoop ctol c f none (((0 : ℕ) : ℝ) + dt, dt) = _
  rw [Nat.cast_zero]
  unfold diffeqLoop
  rw [show (coreInit c f none (0 + dt, dt), ((if c.saveat.t0 then [(c.t0, c.y0)] else []), c.saveat.ts)) = s0 from rfl]
  show (whileLoop (fun s => loopCond c.t1 c.max_steps s.1) b s0).map _ = _
  rw [hw]
  have e2 : b^[2] s0 = b (b s0) := rfl
  rw [Option.map_some, e2, if_neg (by show ¬ running t1 (b (b s0)).1 = true; simp [running, r1])]
  congr 2

/-- C57, `fixed_steps` as it is, with the same clipping tolerance in all units: refuted. The flight of duration 1 with steps
of 1/10 takes at least ten steps; in the unit of time in which its duration is the tolerance it takes two. -/
theorem C57_fixed_steps_refuted {ctol : ℝ} (h0 : 0 < ctol) (h1 : ctol ≤ 1 / 100) {u : Units} (hu : u.T = ctol)
    {o o' : OrbDynx ℝ (V3 ℝ × V3 ℝ)} (h : SameDynamics u o o') (hev : o.event = none) {x0 v : V3 ℝ × V3 ℝ}
    (hf : o.terms 0 x0 o.args = .ok v) {σ σ' : Type} (solver : Solver ℝ (V3 ℝ × V3 ℝ) σ) (solver' : Solver ℝ (V3 ℝ × V3 ℝ) σ') :
    ∃ s s', fixed_steps ctol o x0 1 (1 / 10) solver = some (.ok s) ∧
      fixed_steps ctol o' (unitState u x0) (u.T * 1) (u.T * (1 / 10)) solver' = some (.ok s') ∧
      10 ≤ s.num_steps ∧ s'.num_steps = 2 := by
  obtain ⟨s, hs, he⟩ := C45_fixed_completes (ctol := ctol) (t1 := 1) (dt := 1 / 10) (m := 4096) (solver := solver) h0.le
    one_pos (by norm_num) hev hf (by norm_num)
  obtain ⟨last, -, -, hl⟩ := C45_fixed_times h0.le one_pos (by norm_num) hs
  have hev' : o'.event = none := by
    rcases h.event with ⟨-, h⟩ | ⟨e, e', h, -⟩
    · exact h
    · rw [hev] at h; cases h
  have hf' : o'.terms 0 (unitState u x0) o'.args = .ok (unitRate u v) := by
    have := h.terms 0 x0
    rw [mul_zero, hf] at this
    exact this
  obtain ⟨s', hs', hn, -⟩ := C57_two_steps (ctol := ctol) (solver := solver') (t1 := u.T * 1) (dt := u.T * (1 / 10))
    (m := 4096) hev' hf' (by rw [hu]; positivity) (by rw [hu]; linarith) (by rw [hu, mul_one]) (by norm_num)
  refine ⟨s, s', hs, hs', ?_, hn⟩
  have h10 := (hl he).2.2.2
  by_contra hcon
  have : (s.num_steps : ℝ) ≤ 9 := by exact_mod_cast Nat.lt_succ_iff.1 (not_le.1 hcon)
  linarith

/-- Such dynamics exist: the Earth with its oblateness, in kilometres and seconds, and in another unit of time. -/
example (u : Units) : ∃ o o' : OrbDynx ℝ (V3 ℝ × V3 ℝ), SameDynamics u o o' ∧ o.event = some radiusEvent ∧
    o.args "J2" = some 0.00108 := by
  refine ⟨⟨secondOrder (addAcc (addAcc (addAcc point_mass_grav j2_acc) j3_acc) j4_acc),
    fun k => if k = "mu" then some 398600 else if k = "J2" then some 0.00108 else if k = "J3" then some 0 else
      if k = "J4" then some 0 else if k = "R_eq" then some 6378 else if k = "rmin" then some 6400 else none, some radiusEvent⟩,
    ⟨secondOrder (addAcc (addAcc (addAcc point_mass_grav j2_acc) j3_acc) j4_acc),
    fun k => if k = "mu" then some (u.grav 398600) else if k = "J2" then some 0.00108 else if k = "J3" then some 0 else
      if k = "J4" then some 0 else if k = "R_eq" then some (u.L * 6378) else if k = "rmin" then some (u.L * 6400) else none,
      some radiusEvent⟩,
    C57_same_dynamics u rfl rfl rfl rfl rfl rfl rfl rfl rfl rfl rfl rfl rfl rfl rfl (.inr rfl), rfl, rfl⟩

end Adx
