import Verif.Props.C45

/-! # C46: termination by event, and what reaches the solver -/

set_option linter.unusedSectionVars false

namespace Adx

section anyArith
variable {α : Type} [Add α] [Sub α] [Neg α] [Mul α] [Div α] [Pow α ℕ] [NatCast α] [JFun α]
variable {Y σ γ : Type}

/-- C46: in all five entry points the dynamics, arguments, event, initial state and final time of the
caller reach the solver unchanged, and the initial time is 0. -/
theorem C46_passed (o : OrbDynx α Y) (x0 : Y) (t1 dt : α) (sa : SaveAt α) (dt0 : Option α)
    (ms : Option ℕ) (ts : List α) (solver : Solver α Y σ) (ctrl : Controller α Y γ) :
    (∀ c ∈ [cowellCall o x0 t1 sa dt0 ms solver ctrl, adaptiveCall o x0 t1 ms solver ctrl,
        customCall o x0 t1 ts solver ctrl, finalCall o x0 t1 solver ctrl],
      c.terms = o.terms ∧ c.args = o.args ∧ c.event = o.event ∧ c.y0 = x0 ∧ c.t0 = ℓ 0 ∧ c.t1 = t1 ∧
        c.solver = solver ∧ c.stepsize_controller = ctrl) ∧
    (fixedCall o x0 t1 dt ms solver).terms = o.terms ∧ (fixedCall o x0 t1 dt ms solver).args = o.args ∧
    (fixedCall o x0 t1 dt ms solver).event = o.event ∧ (fixedCall o x0 t1 dt ms solver).y0 = x0 ∧
    (fixedCall o x0 t1 dt ms solver).t0 = ℓ 0 ∧ (fixedCall o x0 t1 dt ms solver).t1 = t1 ∧
    (fixedCall o x0 t1 dt ms solver).solver = solver ∧
    (fixedCall o x0 t1 dt ms solver).dt0 = some dt := by
  refine ⟨?_, rfl, rfl, rfl, rfl, rfl, rfl, rfl, rfl⟩
  intro c hc
  simp only [List.mem_cons, List.not_mem_nil, or_false] at hc
  rcases hc with rfl | rfl | rfl | rfl <;> exact ⟨rfl, rfl, rfl, rfl, rfl, rfl, rfl, rfl⟩

theorem diffeqsolve_event_error {ctol : α} {c : Call α Y σ γ} {e : PyErr} {ev : Event α Y}
    (h1 : (c.saveat.steps && c.max_steps.isNone) = false) (h2 : tsOk c.t0 c.t1 c.saveat.ts = true)
    {v : Y} (hf : c.terms c.t0 c.y0 c.args = .ok v) (hev : c.event = some ev)
    (he : ev c.t0 c.y0 c.args = .error e) : diffeqsolve ctol c = some (.error (.py e)) := by
  have hT : ∃ f, traceTerms c = .ok f := by
    simp only [traceTerms, bind, Except.bind, pure, Except.pure, hf]; exact ⟨_, rfl⟩
  obtain ⟨f, hT⟩ := hT
  have hE : traceEvent c = .error e := by
    simp only [traceEvent, hev, bind, Except.bind, he]
  unfold diffeqsolve
  simp only [h1, Bool.false_eq_true, if_false, h2, Bool.not_true, hT, hE]

/-- C46: an event that needs `rmin` without `rmin` in the arguments raises `KeyError` before any
step is made (here for `adaptive_steps`, `fixed_steps` and `to_final`), in any arithmetic. -/
theorem C46_missing_rmin (ctol : α) (o : OrbDynx α (State α)) (x0 : State α) (t1 dt : α) (m : ℕ)
    (solver : Solver α (State α) σ) (ctrl : Controller α (State α) γ)
    (hev : o.event = some radius_islow) (hr : o.args "rmin" = none) {v : State α}
    (hf : o.terms (ℓ 0) x0 o.args = .ok v) :
    adaptive_steps ctol o x0 t1 solver ctrl (some m) = some (.error (.py (.keyError "rmin"))) ∧
    fixed_steps ctol o x0 t1 dt solver (some m) = some (.error (.py (.keyError "rmin"))) ∧
    to_final ctol o x0 t1 solver ctrl = some (.error (.py (.keyError "rmin"))) := by
  have he : radius_islow (ℓ 0) x0 o.args = .error (.keyError "rmin") := by
    simp [radius_islow, Args.get, hr, bind, Except.bind]
  refine ⟨?_, ?_, ?_⟩ <;> refine diffeqsolve_event_error rfl rfl hf hev he

/-- C46: an `OrbDynx` built from a vector field alone has no event and the single argument `mu = 1`: with it
`point_mass_grav` is the field `-1/|r|^3 r`, and everything that needs another parameter raises `KeyError` for it. -/
theorem C46_defaults (terms : α → Y → Args α → Except PyErr Y) (t : α) (x : State α) :
    let o : OrbDynx α Y := { terms := terms }
    o.event = none ∧ o.args "mu" = some (ℓ 1) ∧ (∀ k, k ≠ "mu" → o.args k = none) ∧
    point_mass_grav t x o.args = .ok ⟨-(ℓ 1 / V3.norm x.pos ^ 3) * x.pos.x, -(ℓ 1 / V3.norm x.pos ^ 3) * x.pos.y,
      -(ℓ 1 / V3.norm x.pos ^ 3) * x.pos.z⟩ ∧
    j2_acc t x o.args = .error (.keyError "J2") ∧ j3_acc t x o.args = .error (.keyError "J3") ∧
    j4_acc t x o.args = .error (.keyError "J4") ∧ radius_islow t x o.args = .error (.keyError "rmin") := by
  refine ⟨rfl, rfl, fun k hk => by simp [defaultArgs, hk], rfl, rfl, rfl, rfl, rfl⟩

end anyArith

variable {Y σ γ : Type} {ctol : ℝ} {t1 : ℝ} {P : γ → Prop}

theorem traceEvent_none {c : Call ℝ Y σ γ} (h : c.event = none) : traceEvent c = .ok none := by
  simp only [traceEvent, h]

/-- C46: with no event configured no run ends by event. -/
theorem no_event {c : Call ℝ Y σ γ} (hc : 0 ≤ ctol) (h01 : c.t0 < c.t1)
    (hv : c.stepsize_controller.Valid c.dt0 P) (he : c.event = none) {s : Sol ℝ Y}
    (h : diffeqsolve ctol c = some (.ok s)) : s.event = false := by
  obtain ⟨-, f, g, first, hf, hg, hi, hl⟩ := diffeqsolve_ok _ _ h
  obtain ⟨k, hr, hm, hrun, hres⟩ := diffeqLoop_ok _ _ _ _ _ hl
  rw [traceEvent_none he] at hg
  cases hg
  rw [hres]
  exact (trace_inv (g := none) hc hv h01 hi k hr).2.2.2.1 rfl

theorem C46_no_event {o : OrbDynx ℝ Y} {x0 : Y} {solver : Solver ℝ Y σ} {ctrl : Controller ℝ Y γ}
    {s : Sol ℝ Y} (hc : 0 ≤ ctol) (h01 : 0 < t1) (he : o.event = none) :
    (∀ ms, ctrl.Valid none P → adaptive_steps ctol o x0 t1 solver ctrl ms = some (.ok s) → s.event = false) ∧
    (∀ ts, ctrl.Valid none P → custom_steps ctol o x0 t1 ts solver ctrl = some (.ok s) → s.event = false) ∧
    (ctrl.Valid none P → to_final ctol o x0 t1 solver ctrl = some (.ok s) → s.event = false) ∧
    (∀ sa dt0 ms, ctrl.Valid dt0 P → cowell_method ctol o x0 t1 sa solver ctrl dt0 ms = some (.ok s) →
      s.event = false) ∧
    (∀ dt ms, 0 < dt → fixed_steps ctol o x0 t1 dt solver ms = some (.ok s) → s.event = false) := by
  have h01' : ((0 : ℕ) : ℝ) < t1 := by rw [Nat.cast_zero]; exact h01
  refine ⟨fun ms hv h => ?_, fun ts hv h => ?_, fun hv h => ?_, fun sa dt0 ms hv h => ?_,
    fun dt ms hdt h => ?_⟩
  · exact no_event (c := adaptiveCall o x0 t1 ms solver ctrl) hc h01' hv he h
  · exact no_event (c := customCall o x0 t1 ts solver ctrl) hc h01' hv he h
  · exact no_event (c := finalCall o x0 t1 solver ctrl) hc h01' hv he h
  · exact no_event (c := cowellCall o x0 t1 sa dt0 ms solver ctrl) hc h01' hv he h
  · exact no_event (c := fixedCall o x0 t1 dt ms solver) hc h01' (constant_valid hdt) he h

/-- Signs along a list whose neighbours have equal signs. -/
theorem sameSign_all {h : ℝ → Y → ℝ} {l : List (ℝ × Y)} {p : ℝ × Y}
    (hc : (p :: l).IsChain (SameSign h)) : ∀ q ∈ p :: l, sgn (h q.1 q.2) = sgn (h p.1 p.2) := by
  induction l generalizing p with
  | nil => simp
  | cons a l ih =>
    rw [List.isChain_cons_cons] at hc
    intro q hq
    rcases List.mem_cons.1 hq with rfl | hq
    · rfl
    · exact (ih hc.2 q hq).trans hc.1.symm

/-- A step-saving run with an event function: the sign of the function is constant along the run, except
that a run ended by the event ends with the first entry of a different sign. -/
theorem event_run {c : Call ℝ Y σ γ} {s : Sol ℝ Y} {h : ℝ → Y → ℝ} (hs : c.saveat.steps = true)
    (h0 : c.saveat.t0 = true) (h1 : c.saveat.t1 = false) (hts : c.saveat.ts = [])
    (hc : 0 ≤ ctol) (h01 : c.t0 < c.t1) (hv : c.stepsize_controller.Valid c.dt0 P)
    (hg : traceEvent c = .ok (some h)) (hr : diffeqsolve ctol c = some (.ok s)) :
    (s.event = false → ∀ p ∈ s.saved, sgn (h p.1 p.2) = sgn (h c.t0 c.y0)) ∧
    (s.event = true → ∃ l q, s.saved = l ++ [q] ∧ l ≠ [] ∧
      (∀ p ∈ l, sgn (h p.1 p.2) = sgn (h c.t0 c.y0)) ∧ sgn (h q.1 q.2) ≠ sgn (h c.t0 c.y0)) := by
  obtain ⟨f, g, first, k, -, hg', hi, e1, hrun, -, -, e3, -⟩ := steps_run hs h0 h1 hts hc h01 hv hr
  rw [hg] at hg'
  cases hg'
  obtain ⟨-, -, -, -, h5⟩ := trace_inv (g := some h) hc hv h01 hi k hrun
  obtain ⟨-, h6, h7⟩ := h5 h rfl
  obtain ⟨C, hC⟩ := keptRev_getLast (c.t0, c.y0) (coreAt ctol c f (some h) first) k
  refine ⟨fun he => ?_, fun he => ?_⟩
  · have := h6 (e3 ▸ he)
    rw [← List.isChain_reverse, hC, List.reverse_append] at this
    intro p hp
    rw [e1, hC, List.reverse_append] at hp
    exact sameSign_all this p hp
  · obtain ⟨q, p, B, hB, hne, hch⟩ := h7 (e3 ▸ he)
    refine ⟨(p :: B).reverse, q, ?_, by simp, ?_, ?_⟩
    · rw [e1, hB, List.reverse_cons]
    all_goals
      have hlast : ∃ D, p :: B = D ++ [(c.t0, c.y0)] := by
        rw [hC] at hB
        cases C with
        | nil => simp at hB
        | cons a C => exact ⟨C, by simpa using (List.cons.inj hB).2.symm⟩
      obtain ⟨D, hD⟩ := hlast
      rw [← List.isChain_reverse, hD, List.reverse_append] at hch
      have hall := sameSign_all (p := (c.t0, c.y0)) (l := D.reverse) hch
    · intro r hr'
      rw [hD, List.reverse_append] at hr'
      exact hall r hr'
    · intro heq
      apply hne
      have hp : p ∈ (c.t0, c.y0) :: D.reverse := by
        have : p ∈ D ++ [(c.t0, c.y0)] := by rw [← hD]; simp
        simpa [or_comm] using this
      exact (hall p hp).trans heq.symm


theorem radius_islow_ok {t : ℝ} {x : State ℝ} {args : Args ℝ} {rmin : ℝ} (h : args "rmin" = some rmin) :
    radius_islow t x args = .ok (V3.norm x.pos - rmin) := by
  simp [radius_islow, Args.get, h, bind, Except.bind, pure, Except.pure]

theorem traceEvent_radius {c : Call ℝ (State ℝ) σ γ} {rmin : ℝ} (he : c.event = some radius_islow)
    (h : c.args "rmin" = some rmin) :
    traceEvent c = .ok (some fun _ y => V3.norm y.pos - rmin) := by
  simp only [traceEvent, he, bind, Except.bind, radius_islow_ok h, pure, Except.pure]

/-- What a step-saving run with the event `radius_islow` looks like: it starts above `rmin`; without the
event every saved state is above `rmin`; with it, exactly the last one is not. -/
def RadiusContract (rmin : ℝ) (s : Sol ℝ (State ℝ)) : Prop :=
  (s.event = false → ∀ p ∈ s.saved, rmin < V3.norm p.2.pos) ∧
  (s.event = true → ∃ l q, s.saved = l ++ [q] ∧ l ≠ [] ∧ (∀ p ∈ l, rmin < V3.norm p.2.pos) ∧
    V3.norm q.2.pos ≤ rmin)

theorem radius_run {c : Call ℝ (State ℝ) σ γ} {s : Sol ℝ (State ℝ)} {rmin : ℝ}
    (hs : c.saveat.steps = true)
    (h0 : c.saveat.t0 = true) (h1 : c.saveat.t1 = false) (hts : c.saveat.ts = [])
    (hc : 0 ≤ ctol) (h01 : c.t0 < c.t1) (hv : c.stepsize_controller.Valid c.dt0 P)
    (he : c.event = some radius_islow) (hrm : c.args "rmin" = some rmin)
    (hstart : rmin < V3.norm c.y0.pos) (hr : diffeqsolve ctol c = some (.ok s)) :
    RadiusContract rmin s := by
  obtain ⟨a, b⟩ := event_run hs h0 h1 hts hc h01 hv (traceEvent_radius he hrm) hr
  have hpos : sgn (V3.norm c.y0.pos - rmin) = 1 := sgn_real_pos.2 (by linarith)
  simp only [hpos, sgn_real_pos, sub_pos] at a b
  refine ⟨a, fun h => ?_⟩
  obtain ⟨l, q, e1, e2, e3, e4⟩ := b h
  refine ⟨l, q, e1, e2, e3, ?_⟩
  rw [ne_eq, sgn_real_pos, sub_pos, not_lt] at e4
  exact e4

/-- C46, `adaptive_steps` with `radius_islow`: a run that ends by the event ends at the first kept step at
or below `rmin`. -/
theorem C46_adaptive {o : OrbDynx ℝ (State ℝ)} {x0 : State ℝ} {solver : Solver ℝ (State ℝ) σ}
    {ctrl : Controller ℝ (State ℝ) γ} {ms : Option ℕ} {s : Sol ℝ (State ℝ)} {rmin : ℝ} (hc : 0 ≤ ctol)
    (h01 : 0 < t1) (hv : ctrl.Valid none P) (he : o.event = some radius_islow)
    (hrm : o.args "rmin" = some rmin) (hstart : rmin < V3.norm x0.pos)
    (h : adaptive_steps ctol o x0 t1 solver ctrl ms = some (.ok s)) : RadiusContract rmin s :=
  radius_run (c := adaptiveCall o x0 t1 ms solver ctrl) rfl rfl rfl rfl hc
    (by change ((0 : ℕ) : ℝ) < t1; rw [Nat.cast_zero]; exact h01) hv he hrm hstart h

/-- C46, `fixed_steps` with `radius_islow`. -/
theorem C46_fixed {o : OrbDynx ℝ (State ℝ)} {x0 : State ℝ} {solver : Solver ℝ (State ℝ) σ}
    {ms : Option ℕ} {s : Sol ℝ (State ℝ)} {rmin dt : ℝ} (hc : 0 ≤ ctol)
    (h01 : 0 < t1) (hdt : 0 < dt) (he : o.event = some radius_islow)
    (hrm : o.args "rmin" = some rmin) (hstart : rmin < V3.norm x0.pos)
    (h : fixed_steps ctol o x0 t1 dt solver ms = some (.ok s)) : RadiusContract rmin s :=
  radius_run (c := fixedCall o x0 t1 dt ms solver) rfl rfl rfl rfl hc
    (by change ((0 : ℕ) : ℝ) < t1; rw [Nat.cast_zero]; exact h01) (constant_valid hdt) he hrm hstart h

/-- C46, `to_final` with `radius_islow`: the returned state is at or below `rmin` exactly if the run ended
by the event. -/
theorem C46_final {o : OrbDynx ℝ (State ℝ)} {x0 : State ℝ} {solver : Solver ℝ (State ℝ) σ}
    {ctrl : Controller ℝ (State ℝ) γ} {s : Sol ℝ (State ℝ)} {rmin : ℝ} (hc : 0 ≤ ctol)
    (h01 : 0 < t1) (hv : ctrl.Valid none P) (he : o.event = some radius_islow)
    (hrm : o.args "rmin" = some rmin) (hstart : rmin < V3.norm x0.pos)
    (h : to_final ctol o x0 t1 solver ctrl = some (.ok s)) :
    ∃ t x, s.saved = [(t, x)] ∧ (s.event = true ↔ V3.norm x.pos ≤ rmin) := by
  obtain ⟨hok, herr⟩ := C45_final_is_last (o := o) (x0 := x0) (solver := solver) hc h01 hv
  obtain ⟨res, hres⟩ := Option.isSome_iff_exists.1
    (C45_returns ctol o x0 t1 solver ctrl 0 4096 {} none).2.1
  rcases res with e | s'
  · rw [herr e hres] at h; cases h
  obtain ⟨p, hp, hf⟩ := hok s' hres
  rw [hf, Option.some.injEq, Except.ok.injEq] at h
  obtain ⟨c1, c2⟩ := C46_adaptive hc h01 hv he hrm hstart hres
  refine ⟨p.1, p.2, by rw [← h], ?_⟩
  rw [← h]
  constructor
  · intro hev
    obtain ⟨l, q, e1, -, -, e4⟩ := c2 hev
    rw [e1, List.getLast?_append] at hp
    simp at hp
    rw [← hp]; exact e4
  · intro hle
    by_contra hev
    have := c1 (by simpa using hev) p (List.mem_of_getLast? hp)
    linarith

/-- C46: a run that *starts* below `rmin` is not stopped by the event while it stays below: the event is
a sign change. (The docstring of `radius_islow` says the propagation stops when the value is negative.) -/
theorem C46_start_below {o : OrbDynx ℝ (State ℝ)} {x0 : State ℝ} {solver : Solver ℝ (State ℝ) σ}
    {ctrl : Controller ℝ (State ℝ) γ} {ms : Option ℕ} {s : Sol ℝ (State ℝ)} {rmin : ℝ} (hc : 0 ≤ ctol)
    (h01 : 0 < t1) (hv : ctrl.Valid none P) (he : o.event = some radius_islow)
    (hrm : o.args "rmin" = some rmin) (hstart : V3.norm x0.pos < rmin)
    (h : adaptive_steps ctol o x0 t1 solver ctrl ms = some (.ok s)) :
    (s.event = false → ∀ p ∈ s.saved, V3.norm p.2.pos < rmin) ∧
    (s.event = true → ∃ l q, s.saved = l ++ [q] ∧ l ≠ [] ∧ (∀ p ∈ l, V3.norm p.2.pos < rmin) ∧
      rmin ≤ V3.norm q.2.pos) := by
  obtain ⟨a, b⟩ := event_run (c := adaptiveCall o x0 t1 ms solver ctrl) rfl rfl rfl rfl hc
    (by change ((0 : ℕ) : ℝ) < t1; rw [Nat.cast_zero]; exact h01) hv (traceEvent_radius he hrm) h
  have hneg : sgn (V3.norm x0.pos - rmin) = -1 := sgn_real_neg.2 (by linarith)
  simp only [show (adaptiveCall o x0 t1 ms solver ctrl).y0 = x0 from rfl, hneg, sgn_real_neg,
    sub_neg] at a b
  refine ⟨a, fun h => ?_⟩
  obtain ⟨l, q, e1, e2, e3, e4⟩ := b h
  refine ⟨l, q, e1, e2, e3, ?_⟩
  rw [ne_eq, sgn_real_neg, sub_neg, not_lt] at e4
  exact e4

/-- A solver that stays where it is, to exhibit runs. -/
def stay : Solver ℝ (State ℝ) Unit where
  init _ _ _ := ()
  step _ _ _ y _ := (y, fun _ => y, y, ())

/-- A solver that moves to the origin in one step. -/
def fall : Solver ℝ (State ℝ) Unit where
  init _ _ _ := ()
  step _ _ _ y _ := (⟨⟨0, 0, 0⟩, y.rest⟩, fun _ => y, y, ())

/-- The configuration of the examples below: event `radius_islow` with `rmin = 2`. -/
noncomputable def lowOrbit : OrbDynx ℝ (State ℝ) where
  terms _ y _ := .ok y
  args := fun k => if k = "rmin" then some 2 else none
  event := some radius_islow

theorem norm_axis {a : ℝ} (ha : 0 ≤ a) : V3.norm (⟨a, 0, 0⟩ : V3 ℝ) = a := by
  simp [V3.norm, V3.dot, sqrt_real, Real.sqrt_mul_self ha]

/-- A run of one step. -/
theorem one_step {S : Solver ℝ (State ℝ) Unit} {x0 x1 : State ℝ}
    (hS : ∀ f st, (S.step f 0 1 x0 st).1 = x1) :
    fixed_steps (1 / 10 ^ 6) lowOrbit x0 1 1 S = some (.ok ⟨[(0, x0), (1, x1)],
      decide (sgn (V3.norm x1.pos - 2) ≠ sgn (V3.norm x0.pos - 2)), 1⟩) := by
  set c := fixedCall lowOrbit x0 1 1 (some 4096) S with hcdef
  have h0 : c.t0 = 0 := Nat.cast_zero
  have hg : traceEvent c = .ok (some fun _ y => V3.norm y.pos - 2) :=
    traceEvent_radius rfl (by simp [hcdef, fixedCall, lowOrbit])
  obtain ⟨f, hf⟩ : ∃ f, traceTerms c = .ok f := ⟨_, rfl⟩
  have hi : c.stepsize_controller.init f c.t0 c.t1 c.y0 c.dt0 = .ok (0 + 1, 1) := by
    simp [hcdef, fixedCall, constantStepSize]
  have hsolve : fixed_steps (1 / 10 ^ 6) lowOrbit x0 1 1 S
      = diffeqLoop (1 / 10 ^ 6) c f (some fun _ y => V3.norm y.pos - 2) (0 + 1, 1) := by
    change diffeqsolve _ c = _
    unfold diffeqsolve
    simp only [hf, hg, hi]
    simp [hcdef, fixedCall, tsOk]
  set K := coreAt (1 / 10 ^ 6) c f (some fun _ y => V3.norm y.pos - 2) (0 + 1, 1) with hK
  have a1 : (K 0).tprev = 0 := h0
  have a2 : (K 0).tnext = 1 := by
    change jmin (0 + 1 : ℝ) 1 = 1; rw [jmin_real]; norm_num
  have b0 : K 1 = coreStep (1 / 10 ^ 6) c f (some fun _ y => V3.norm y.pos - 2) (K 0) := rfl
  have b1 : (K 1).tprev = 1 := by
    change jmin (K 0).tnext 1 = 1; rw [jmin_real, a2, min_self]
  have b2 : (K 1).y = x1 := by
    change (S.step f (K 0).tprev (K 0).tnext x0 _).1 = x1
    rw [a1, a2, hS]
  have b3 : (K 1).kept = true := rfl
  have b4 : (K 1).event = decide (sgn (V3.norm x1.pos - 2) ≠ sgn (V3.norm x0.pos - 2)) := by
    rw [← b2]; rfl
  rw [hsolve, diffeqLoop_of (k := 1)]
  · simp only [running, ← hK, b1, show c.t1 = 1 from rfl, lt_real, lt_irrefl, decide_false,
      Bool.false_and, Bool.false_eq_true, if_false, show c.saveat.t0 = true from rfl, if_true,
      show c.saveat.t1 = false from rfl, show c.saveat.ts = [] from rfl, List.append_nil,
      savesAt_steps _ _ c.saveat rfl, keptRev, b3, b2, b4, h0, show c.y0 = x0 from rfl]
    rfl
  · intro j hj
    obtain rfl : j = 0 := by omega
    have : running (1 : ℝ) (K 0) = true := by
      simp only [running, a1, lt_real, zero_lt_one, decide_true, Bool.true_and]; rfl
    change loopCond (1 : ℝ) (some 4096) (K 0) = true
    rw [loopCond, this]; rfl
  · change loopCond (1 : ℝ) (some 4096) (K 1) = false
    simp [loopCond, running, b1, lt_real]

/-- C46: the docstring's claim refuted in the model: a run wholly below `rmin` that reaches `t1` without
the event. -/
theorem C46_docstring_refuted : ∃ s, fixed_steps (1 / 10 ^ 6) lowOrbit ⟨⟨1, 0, 0⟩, []⟩ (1 : ℝ) 1 stay
    = some (.ok s) ∧ s.event = false ∧ ∀ p ∈ s.saved, radius_islow p.1 p.2 lowOrbit.args = .ok (-1) := by
  have hx : V3.norm (⟨1, 0, 0⟩ : V3 ℝ) = 1 := norm_axis zero_le_one
  refine ⟨_, one_step (x1 := ⟨⟨1, 0, 0⟩, []⟩) (fun _ _ => rfl), by simp, ?_⟩
  intro p hp
  rw [radius_islow_ok (rmin := 2) (by simp [lowOrbit])]
  simp only [List.mem_cons, List.not_mem_nil, or_false] at hp
  rcases hp with rfl | rfl <;> rw [hx] <;> norm_num

/-- A case where the event does end the run: from radius 3 to the origin in one step. -/
example : ∃ s, fixed_steps (1 / 10 ^ 6) lowOrbit ⟨⟨3, 0, 0⟩, []⟩ (1 : ℝ) 1 fall = some (.ok s) ∧
    s.event = true ∧ RadiusContract 2 s := by
  have hx : V3.norm (⟨3, 0, 0⟩ : V3 ℝ) = 3 := norm_axis (by norm_num)
  have h0 : V3.norm (⟨0, 0, 0⟩ : V3 ℝ) = 0 := norm_axis le_rfl
  have h := one_step (S := fall) (x0 := ⟨⟨3, 0, 0⟩, []⟩) (x1 := ⟨⟨0, 0, 0⟩, []⟩) (fun _ _ => rfl)
  refine ⟨_, h, ?_, C46_fixed (rmin := 2) (by norm_num) one_pos one_pos rfl (by simp [lowOrbit])
    (by rw [hx]; norm_num) h⟩
  simp only [hx, h0, ne_eq, decide_not, Bool.not_eq_true', decide_eq_false_iff_not]
  rw [sgn_real_pos.2 (show (0 : ℝ) < 3 - 2 by norm_num)]
  rw [sgn_real_neg.2 (show (0 : ℝ) - 2 < 0 by norm_num)]
  decide

end Adx
