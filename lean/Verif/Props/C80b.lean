import Verif.Props.C80
import Mathlib.Analysis.Calculus.Deriv.Comp
import Mathlib.Analysis.Calculus.Deriv.Add

/-! # C80, continued: time reversal, convergence, the way there and back -/

namespace Adx
open V3 Spec

/-- The state with the velocity reversed. -/
def flip (y : V3 ℝ × V3 ℝ) : V3 ℝ × V3 ℝ := (y.1, -y.2)

theorem flip_flip (y : V3 ℝ × V3 ℝ) : flip (flip y) = y :=
  Prod.ext rfl (V3.ext (neg_neg _) (neg_neg _) (neg_neg _))

/-- The solution of the mirrored problem: times negated, velocities reversed. -/
def backwards (s : Sol ℝ (V3 ℝ × V3 ℝ)) : Sol ℝ (V3 ℝ × V3 ℝ) := (Sol.map flip s).negTimes

section
variable {acc : ℝ → State ℝ → Args ℝ → Except PyErr (V3 ℝ)} {f : V3 ℝ → V3 ℝ}
  {o : OrbDynx ℝ (V3 ℝ × V3 ℝ)} {tb : Tableau ℝ} {interp : ℝ → ℝ → V3 ℝ × V3 ℝ → V3 ℝ × V3 ℝ → ℝ → V3 ℝ × V3 ℝ}
  {err : ℝ → ℝ → V3 ℝ × V3 ℝ → V3 ℝ × V3 ℝ → V3 ℝ × V3 ℝ}

/-- The setting: any force that depends on the position only, an event that does not change when time and velocity are
reversed, an interpolation and an error estimate that commute with the reversal of the velocity. -/
structure Reversible (acc : ℝ → State ℝ → Args ℝ → Except PyErr (V3 ℝ)) (f : V3 ℝ → V3 ℝ)
    (o : OrbDynx ℝ (V3 ℝ × V3 ℝ)) (interp : ℝ → ℝ → V3 ℝ × V3 ℝ → V3 ℝ × V3 ℝ → ℝ → V3 ℝ × V3 ℝ)
    (err : ℝ → ℝ → V3 ℝ × V3 ℝ → V3 ℝ × V3 ℝ → V3 ℝ × V3 ℝ) : Prop where
  /-- the force -/
  field : IsField acc o.args f
  /-- it is the one propagated -/
  terms : o.terms = secondOrder acc
  /-- event -/
  event : ∀ e, o.event = some e → ∀ t y, e (-t) (flip y) o.args = e t y o.args
  /-- interpolation -/
  interp : ∀ t0 t1 a b t, interp t0 t1 (flip a) (flip b) t = flip (interp t0 t1 a b t)
  /-- error estimate -/
  err : ∀ t0 t1 a b, err t0 t1 (flip a) (flip b) = flip (err t0 t1 a b)

theorem Reversible.callHom {γ : Type} (h : Reversible acc f o interp err) {ctrl : Controller ℝ (V3 ℝ × V3 ℝ) γ}
    (hc : ControllerHom flip id ctrl ctrl) (sa : SaveAt ℝ) (dt0 : Option ℝ) (ms : Option ℕ) (t1 : ℝ)
    (x0 : V3 ℝ × V3 ℝ) :
    CallHom flip flip id (cowellCall o x0 t1 sa dt0 ms (rkSolver tb interp err) ctrl)
      (cowellCall (reverseDyn o) (flip x0) t1 sa dt0 ms (rkSolver tb interp err) ctrl) where
  terms t y := by
    show (o.terms (-t) (flip y) o.args).map (fun v => -v) = (o.terms t y o.args).map flip
    have e1 := h.field t [y.2.x, y.2.y, y.2.z] y.1
    have e2 := h.field (-t) [(-y.2).x, (-y.2).y, (-y.2).z] y.1
    rw [h.terms]
    simp only [secondOrder, flip, e1, e2]
    refine congrArg Except.ok (Prod.ext (V3.ext (neg_neg _) (neg_neg _) (neg_neg _)) rfl)
  solver := rkSolver_hom
    (fun a b => Prod.ext rfl (V3.ext (neg_add _ _) (neg_add _ _) (neg_add _ _)))
    (fun k a => Prod.ext rfl (V3.ext (mul_neg _ _).symm (mul_neg _ _).symm (mul_neg _ _).symm)) tb
    h.interp h.err
  ctrl := hc
  t0 := rfl
  t1 := rfl
  dt0 := rfl
  y0 := rfl
  max_steps := rfl
  saveat := rfl
  event := by
    show (o.event = none ∧ (o.event.map fun e t y args => e (-t) y args) = none) ∨
      ∃ e e', o.event = some e ∧ (o.event.map fun e t y args => e (-t) y args) = some e' ∧
      ∀ t y, e' t (flip y) o.args = e t y o.args
    cases he : o.event with
    | none => exact Or.inl ⟨rfl, rfl⟩
    | some e => exact Or.inr ⟨e, _, rfl, rfl, h.event e he⟩

theorem Reversible.dir {γ : Type} (h : Reversible acc f o interp err) {ctrl : Controller ℝ (V3 ℝ × V3 ℝ) γ}
    (hc : ControllerHom flip id ctrl ctrl) (sa : SaveAt ℝ) (dt0 : Option ℝ) (ms : Option ℕ) {t1 : ℝ} (ht : t1 ≠ 0)
    (ctol : ℝ) (x0 : V3 ℝ × V3 ℝ) :
    cowell_method_any ctol o (flip x0) (-t1) { sa with ts := sa.ts.map fun t => -t } (rkSolver tb interp err) ctrl
        (dt0.map fun h => -h) ms
      = (cowell_method_any ctol o x0 t1 sa (rkSolver tb interp err) ctrl dt0 ms).map (Except.map backwards) := by
  have ets : (sa.ts.map fun t => -t).map (fun t => -t) = sa.ts := by simp [List.map_map]
  have edt : (dt0.map fun h => -h).map (fun h => -h) = dt0 := by cases dt0 <;> simp
  by_cases hbad : ∃ d, dt0 = some d ∧ t1 * d < 0
  · obtain ⟨d, rfl, hd⟩ := hbad
    rw [(C80_wrong_sign (solver := rkSolver tb interp err) (ctrl := ctrl) hd ms sa).2, Option.map_some,
      (C80_wrong_sign (solver := rkSolver tb interp err) (ctrl := ctrl) (t1 := -t1) (dt := -d) (by rwa [neg_mul_neg]) ms
        { sa with ts := sa.ts.map fun t => -t }).2]
    rfl
  · push Not at hbad
    rcases lt_or_gt_of_ne ht with hneg | hpos
    · have hd : ∀ d, dt0 = some d → d ≤ 0 := fun d e => by
        have := hbad d e
        by_contra hcon
        push Not at hcon
        nlinarith
      rw [(C80_backward (dt := 0) hneg le_rfl ms [] sa dt0 hd).2.2.2.2,
        (C80_forward (dt := 0) (t1 := -t1) (by linarith) le_rfl ms [] _ (dt0.map fun h => -h) (fun d e => by
          cases dt0 with
          | none => cases e
          | some d' => cases e; have := hd d' rfl; linarith)).2.2.2.2]
      have := (h.callHom (tb := tb) hc { sa with ts := sa.ts.map fun t => -t } (dt0.map fun h => -h) ms (-t1)
        (flip x0)).diffeqsolve ctol
      rw [flip_flip] at this
      show diffeqsolve ctol _ = (Option.map _ (diffeqsolve ctol _)).map _
      rw [this]
      generalize diffeqsolve ctol _ = res
      rcases res with _ | e | s
      · rfl
      · rfl
      · simp only [Option.map_some, Except.map, backwards, Sol.map, Sol.negTimes, List.map_map, Function.comp_def, flip_flip,
          neg_neg, Prod.mk.eta, List.map_id']
    · have hd : ∀ d, dt0 = some d → 0 ≤ d := fun d e => by
        have := hbad d e
        by_contra hcon
        push Not at hcon
        nlinarith
      rw [(C80_forward (dt := 0) hpos le_rfl ms [] sa dt0 hd).2.2.2.2,
        (C80_backward (dt := 0) (t1 := -t1) (by linarith) le_rfl ms [] _ (dt0.map fun h => -h) (fun d e => by
          cases dt0 with
          | none => cases e
          | some d' => cases e; have := hd d' rfl; linarith)).2.2.2.2, neg_neg, edt]
      simp only [ets]
      have := (h.callHom (tb := tb) hc sa dt0 ms t1 x0).diffeqsolve ctol
      show Option.map _ (diffeqsolve ctol _) = Option.map _ (diffeqsolve ctol _)
      rw [this, Option.map_map]
      generalize diffeqsolve ctol _ = res
      rcases res with _ | e | s <;> rfl

/-- C80, time reversal: propagating the state with reversed velocity to `-t1` gives the states of the propagation to `t1` with
reversed velocities, at the negated times, with the same event and the same errors. -/
theorem C80_reversal_fixed (h : Reversible acc f o interp err) {t1 : ℝ} (ht : t1 ≠ 0) (ctol dt : ℝ) (ms : Option ℕ)
    (x0 : V3 ℝ × V3 ℝ) :
    fixed_steps_any ctol o (flip x0) (-t1) (-dt) (rkSolver tb interp err) ms
      = (fixed_steps_any ctol o x0 t1 dt (rkSolver tb interp err) ms).map (Except.map backwards) :=
  h.dir (constant_hom _) { t0 := true, steps := true } (some dt) ms ht ctol x0

/-- C80, time reversal for the other propagators, if the controller does not look at the sign of the velocity. -/
theorem C80_reversal_adaptive {γ : Type} (h : Reversible acc f o interp err) {ctrl : Controller ℝ (V3 ℝ × V3 ℝ) γ}
    (hc : ControllerHom flip id ctrl ctrl) {t1 : ℝ} (ht : t1 ≠ 0) (ctol : ℝ) (ms : Option ℕ) (ts : List ℝ)
    (x0 : V3 ℝ × V3 ℝ) :
    adaptive_steps_any ctol o (flip x0) (-t1) (rkSolver tb interp err) ctrl ms
      = (adaptive_steps_any ctol o x0 t1 (rkSolver tb interp err) ctrl ms).map (Except.map backwards) ∧
    custom_steps_any ctol o (flip x0) (-t1) (ts.map fun t => -t) (rkSolver tb interp err) ctrl
      = (custom_steps_any ctol o x0 t1 ts (rkSolver tb interp err) ctrl).map (Except.map backwards) ∧
    to_final_any ctol o (flip x0) (-t1) (rkSolver tb interp err) ctrl
      = (to_final_any ctol o x0 t1 (rkSolver tb interp err) ctrl).map (Except.map backwards) :=
  ⟨h.dir hc { t0 := true, steps := true } none ms ht ctol x0, h.dir hc { ts := ts } none none ht ctol x0,
    h.dir hc { t1 := true } none (some 4096) ht ctol x0⟩

/-- The error norm of the default controller does not look at the sign of the velocity, unlike at the axes
(`C74_pid_refuted`). -/
theorem rmsScaled_flip (rtol atol : ℝ) (y0 y1 e : V3 ℝ × V3 ℝ) :
    rmsScaled rtol atol (flip y0) (flip y1) (flip e) = rmsScaled rtol atol y0 y1 e := by
  simp only [rmsScaled, flip, neg_x, neg_y, neg_z, abs_neg, neg_div, neg_sq]

/-- C80: so time reversal holds with a controller in the manner of `PIDController` with that norm, if its first step does not
look at the sign of the velocity either. -/
theorem C80_pid {γ : Type} (rtol atol : ℝ) (factor : ℝ → γ → ℝ) (mem : γ → ℝ → γ) (g0 : γ)
    {h0 : (ℝ → V3 ℝ × V3 ℝ → V3 ℝ × V3 ℝ) → ℝ → V3 ℝ × V3 ℝ → ℝ}
    (hh : ∀ f f' t y, FieldHom flip f f' → h0 f' t (flip y) = h0 f t y) :
    ControllerHom flip id (pidLike (rmsScaled rtol atol) factor mem g0 h0) (pidLike (rmsScaled rtol atol) factor mem g0 h0) where
  init f f' t0 t1 y dt0 hf := by
    cases dt0 with
    | none => simp only [pidLike, hh f f' t0 y hf]; rfl
    | some h => rfl
  adapt t0 t1 y0 y1 e s := by
    simp only [pidLike, rmsScaled_flip, id]

end

/-! ## The forces of the library -/

theorem radiusEvent_flip (args : Args ℝ) (t : ℝ) (y : V3 ℝ × V3 ℝ) :
    radiusEvent (-t) (flip y) args = radiusEvent t y args := rfl

/-- C80: every force that depends on the position only, with or without the radius event. -/
theorem reversible_of {acc : ℝ → State ℝ → Args ℝ → Except PyErr (V3 ℝ)} {f : V3 ℝ → V3 ℝ} {o : OrbDynx ℝ (V3 ℝ × V3 ℝ)}
    {interp : ℝ → ℝ → V3 ℝ × V3 ℝ → V3 ℝ × V3 ℝ → ℝ → V3 ℝ × V3 ℝ} {err : ℝ → ℝ → V3 ℝ × V3 ℝ → V3 ℝ × V3 ℝ → V3 ℝ × V3 ℝ}
    (hf : IsField acc o.args f) (ho : o.terms = secondOrder acc) (he : o.event = none ∨ o.event = some radiusEvent)
    (hi : ∀ t0 t1 a b t, interp t0 t1 (flip a) (flip b) t = flip (interp t0 t1 a b t))
    (her : ∀ t0 t1 a b, err t0 t1 (flip a) (flip b) = flip (err t0 t1 a b)) : Reversible acc f o interp err := by
  refine ⟨hf, ho, fun e hee t y => ?_, hi, her⟩
  rcases he with he | he
  · rw [he] at hee; simp at hee
  · rw [he, Option.some.injEq] at hee
    subst hee
    exact radiusEvent_flip _ _ _

/-- C80, point mass. -/
theorem C80_point_mass {o : OrbDynx ℝ (V3 ℝ × V3 ℝ)} {mu : ℝ} (ho : o.terms = secondOrder point_mass_grav)
    (hm : o.args "mu" = some mu) (he : o.event = none ∨ o.event = some radiusEvent) (tb : Tableau ℝ)
    {interp : ℝ → ℝ → V3 ℝ × V3 ℝ → V3 ℝ × V3 ℝ → ℝ → V3 ℝ × V3 ℝ} {err : ℝ → ℝ → V3 ℝ × V3 ℝ → V3 ℝ × V3 ℝ → V3 ℝ × V3 ℝ}
    (hi : ∀ t0 t1 a b t, interp t0 t1 (flip a) (flip b) t = flip (interp t0 t1 a b t))
    (her : ∀ t0 t1 a b, err t0 t1 (flip a) (flip b) = flip (err t0 t1 a b))
    {t1 : ℝ} (ht : t1 ≠ 0) (ctol dt : ℝ) (ms : Option ℕ) (r v : V3 ℝ) :
    fixed_steps_any ctol o (r, -v) (-t1) (-dt) (rkSolver tb interp err) ms
      = (fixed_steps_any ctol o (r, v) t1 dt (rkSolver tb interp err) ms).map (Except.map backwards) :=
  C80_reversal_fixed (reversible_of (f := fun p => (-(mu / V3.norm p ^ 3)) • p)
    (fun t rest p => C41_point_mass_is_newton t mu _ o.args hm) ho he hi her) ht ctol dt ms (r, v)

/-- C80, point mass with `J2`, `J3`, `J4`. -/
theorem C80_zonal {o : OrbDynx ℝ (V3 ℝ × V3 ℝ)} {f0 f2 f3 f4 : V3 ℝ → V3 ℝ} (ho : o.terms = secondOrder zonalForce)
    (h0 : IsField point_mass_grav o.args f0) (h2 : IsField j2_acc o.args f2) (h3 : IsField j3_acc o.args f3)
    (h4 : IsField j4_acc o.args f4) (he : o.event = none ∨ o.event = some radiusEvent) (tb : Tableau ℝ)
    {interp : ℝ → ℝ → V3 ℝ × V3 ℝ → V3 ℝ × V3 ℝ → ℝ → V3 ℝ × V3 ℝ} {err : ℝ → ℝ → V3 ℝ × V3 ℝ → V3 ℝ × V3 ℝ → V3 ℝ × V3 ℝ}
    (hi : ∀ t0 t1 a b t, interp t0 t1 (flip a) (flip b) t = flip (interp t0 t1 a b t))
    (her : ∀ t0 t1 a b, err t0 t1 (flip a) (flip b) = flip (err t0 t1 a b))
    {t1 : ℝ} (ht : t1 ≠ 0) (ctol dt : ℝ) (ms : Option ℕ) (r v : V3 ℝ) :
    fixed_steps_any ctol o (r, -v) (-t1) (-dt) (rkSolver tb interp err) ms
      = (fixed_steps_any ctol o (r, v) t1 dt (rkSolver tb interp err) ms).map (Except.map backwards) :=
  C80_reversal_fixed (reversible_of (f := fun p => f0 p + f2 p + f3 p + f4 p)
    (fun t rest p => by simp only [zonalForce, addAcc, h0 t rest p, h2 t rest p, h3 t rest p, h4 t rest p]; rfl)
    ho he hi her) ht ctol dt ms (r, v)

/-! ## The event -/

/-- C80, `radius_islow` backwards: it is the first kept step at or below `rmin` that ends the run. -/
theorem C80_radius {o : OrbDynx ℝ (V3 ℝ × V3 ℝ)} {x0 : V3 ℝ × V3 ℝ} {σ γ : Type} {solver : Solver ℝ (V3 ℝ × V3 ℝ) σ}
    {ctrl : Controller ℝ (V3 ℝ × V3 ℝ) γ} {P : γ → Prop} {ms : Option ℕ} {s : Sol ℝ (V3 ℝ × V3 ℝ)} {rmin t1 ctol : ℝ}
    (hc : 0 ≤ ctol) (h01 : t1 < 0) (he : o.event = some radiusEvent) (hrm : o.args "rmin" = some rmin)
    (hstart : rmin < V3.norm x0.1)
    (h : (∃ dt < 0, fixed_steps_any ctol o x0 t1 dt solver ms = some (.ok s)) ∨
      (ctrl.Valid none P ∧ adaptive_steps_any ctol o x0 t1 solver ctrl ms = some (.ok s))) :
    (s.event = false → ∀ p ∈ s.saved, rmin < V3.norm p.2.1) ∧
    (s.event = true → ∃ l q, s.saved = l ++ [q] ∧ l ≠ [] ∧ (∀ p ∈ l, rmin < V3.norm p.2.1) ∧ V3.norm q.2.1 ≤ rmin) := by
  have key : ∀ {γ : Type} {ctrl : Controller ℝ (V3 ℝ × V3 ℝ) γ} {P : γ → Prop} {dt0 : Option ℝ}, ctrl.Valid dt0 P → ∀ s',
      diffeqsolve ctol (cowellCall (reverseDyn o) x0 (-t1) { t0 := true, steps := true } dt0 ms solver ctrl) = some (.ok s') →
      (s'.event = false → ∀ p ∈ s'.negTimes.saved, rmin < V3.norm p.2.1) ∧
      (s'.event = true → ∃ l q, s'.negTimes.saved = l ++ [q] ∧ l ≠ [] ∧ (∀ p ∈ l, rmin < V3.norm p.2.1) ∧
        V3.norm q.2.1 ≤ rmin) := by
    intro γ ctrl P dt0 hv s' hs
    have htr : traceEvent (cowellCall (reverseDyn o) x0 (-t1) { t0 := true, steps := true } dt0 ms solver ctrl)
        = .ok (some fun _ y => V3.norm y.1 - rmin) := by
      simp only [traceEvent, cowellCall, reverseDyn, he, Option.map_some, bind, Except.bind, radiusEvent,
        radius_islow_ok hrm, pure, Except.pure]
    obtain ⟨a, b⟩ := event_run (c := cowellCall (reverseDyn o) x0 (-t1) { t0 := true, steps := true } dt0 ms solver ctrl)
      rfl rfl rfl rfl hc (by show ((0 : ℕ) : ℝ) < -t1; rw [Nat.cast_zero]; linarith) hv htr hs
    have hpos : sgn (V3.norm x0.1 - rmin) = 1 := sgn_real_pos.2 (by linarith)
    have hpos' : sgn (V3.norm (cowellCall (reverseDyn o) x0 (-t1) { t0 := true, steps := true } dt0 ms solver ctrl).y0.1
      - rmin) = 1 := hpos
    simp only [hpos', sgn_real_pos, sub_pos] at a b
    refine ⟨fun hev p hp => ?_, fun hev => ?_⟩
    · simp only [Sol.negTimes, List.mem_map] at hp
      obtain ⟨q, hq, rfl⟩ := hp
      exact a hev q hq
    · obtain ⟨l, q, e1, e2, e3, e4⟩ := b hev
      refine ⟨l.map fun p => (-p.1, p.2), (-q.1, q.2), by simp [Sol.negTimes, e1], by simpa using e2, fun p hp => ?_, ?_⟩
      · simp only [List.mem_map] at hp
        obtain ⟨q', hq, rfl⟩ := hp
        exact e3 q' hq
      · rw [ne_eq, sgn_real_pos, sub_pos, not_lt] at e4
        exact e4
  rcases h with ⟨dt, hdt, h⟩ | ⟨hv, h⟩
  · rw [(C80_backward (ctrl := (constantStepSize : Controller ℝ (V3 ℝ × V3 ℝ) ℝ)) h01 hdt.le ms [] {} none (by simp)).1] at h
    obtain ⟨s', hs, rfl⟩ := map_ok h
    exact key (constant_valid (dt := -dt) (by linarith)) s' hs
  · rw [(C80_backward (dt := 0) h01 le_rfl ms [] {} none (by simp)).2.1] at h
    obtain ⟨s', hs, rfl⟩ := map_ok h
    exact key hv s' hs

/-! ## Convergence -/

/-- Every entry saved by `fixed_steps` and `adaptive_steps` propagating backwards over a time `T` from within `η` of the
trajectory `(r, v)` is within `C · (step + defect of the weights + η)` of the trajectory at the time of the entry (compare
`StepsClose`). -/
def BackClose (terms : ℝ → V3 ℝ × V3 ℝ → Args ℝ → Except PyErr (V3 ℝ × V3 ℝ)) (args : Args ℝ) (r v : ℝ → V3 ℝ)
    (T A C h0 : ℝ) : Prop :=
  ∀ (o : OrbDynx ℝ (V3 ℝ × V3 ℝ)) (tb : Tableau ℝ) (interp : ℝ → ℝ → V3 ℝ × V3 ℝ → V3 ℝ × V3 ℝ → ℝ → V3 ℝ × V3 ℝ)
    (err : ℝ → ℝ → V3 ℝ × V3 ℝ → V3 ℝ × V3 ℝ → V3 ℝ × V3 ℝ) (β ctol η : ℝ) (x0 : V3 ℝ × V3 ℝ) (ms : Option ℕ)
    (s : Sol ℝ (V3 ℝ × V3 ℝ)),
    o.terms = terms → o.args = args → tb.rows ≠ [] → RowsOk A β tb.rows 1 → 0 ≤ ctol → Near η x0 (r 0, v 0) →
    (∀ dt < 0, -dt + ctol + |β - 1| + η ≤ h0 →
      fixed_steps_any ctol o x0 (-T) dt (rkSolver tb interp err) ms = some (.ok s) →
      ∀ p ∈ s.saved, -T ≤ p.1 ∧ p.1 ≤ 0 ∧ Near (C * (-dt + ctol + |β - 1| + η)) p.2 (r p.1, v p.1)) ∧
    (∀ (γ : Type) (ctrl : Controller ℝ (V3 ℝ × V3 ℝ) γ) (P : γ → Prop) (H : ℝ), ctrl.Valid none P → 0 ≤ H →
      H + |β - 1| + η ≤ h0 →
      adaptive_steps_any ctol o x0 (-T) (rkSolver tb interp err) ctrl ms = some (.ok s) →
      s.saved.IsChain (fun p q => p.1 - q.1 ≤ H) →
      ∀ p ∈ s.saved, -T ≤ p.1 ∧ p.1 ≤ 0 ∧ Near (C * (H + |β - 1| + η)) p.2 (r p.1, v p.1))

/-- The controller that sees the reversed velocities. -/
def flipCtrl {γ : Type} (K : Controller ℝ (V3 ℝ × V3 ℝ) γ) : Controller ℝ (V3 ℝ × V3 ℝ) γ where
  init f t0 t1 y dt0 := K.init (fun t y => flip (f t (flip y))) t0 t1 (flip y) dt0
  adapt t0 t1 y0 y1 e s := K.adapt t0 t1 (flip y0) (flip y1) (flip e) s

theorem flipCtrl_valid {γ : Type} {K : Controller ℝ (V3 ℝ × V3 ℝ) γ} {dt0 : Option ℝ} {P : γ → Prop} (h : K.Valid dt0 P) :
    (flipCtrl K).Valid dt0 P where
  init hi ht := h.init hi ht
  keep ht hp hk := h.keep ht hp hk
  reject ht hp hk := h.reject ht hp hk
  pres ht hp := h.pres ht hp

theorem flipCtrl_hom {γ : Type} (K : Controller ℝ (V3 ℝ × V3 ℝ) γ) : ControllerHom flip id (flipCtrl K) K where
  init f f' t0 t1 y dt0 hf := by
    have e : f' = fun t y => flip (f t (flip y)) := by
      funext t y
      rw [← hf t (flip y), flip_flip]
    subst e
    simp only [flipCtrl]
    rcases K.init (fun t y => flip (f t (flip y))) t0 t1 (flip y) dt0 with e | p <;> rfl
  adapt t0 t1 y0 y1 e s := rfl

/-- A backward run is the image of a forward run from the reversed velocity, for any interpolation, error estimate, event and
controller, each conjugated by the reversal. -/
theorem back_run {acc : ℝ → State ℝ → Args ℝ → Except PyErr (V3 ℝ)} {f : V3 ℝ → V3 ℝ} {o : OrbDynx ℝ (V3 ℝ × V3 ℝ)}
    (hf : IsField acc o.args f) (ho : o.terms = secondOrder acc) (tb : Tableau ℝ)
    (interp : ℝ → ℝ → V3 ℝ × V3 ℝ → V3 ℝ × V3 ℝ → ℝ → V3 ℝ × V3 ℝ)
    (err : ℝ → ℝ → V3 ℝ × V3 ℝ → V3 ℝ × V3 ℝ → V3 ℝ × V3 ℝ) :
    ∃ (o' : OrbDynx ℝ (V3 ℝ × V3 ℝ)) (interp' : ℝ → ℝ → V3 ℝ × V3 ℝ → V3 ℝ × V3 ℝ → ℝ → V3 ℝ × V3 ℝ)
      (err' : ℝ → ℝ → V3 ℝ × V3 ℝ → V3 ℝ × V3 ℝ → V3 ℝ × V3 ℝ), o'.terms = o.terms ∧ o'.args = o.args ∧
      ∀ {γ : Type} (ctrl ctrl' : Controller ℝ (V3 ℝ × V3 ℝ) γ), ControllerHom flip id ctrl' ctrl →
        ∀ (sa : SaveAt ℝ) (dt0 : Option ℝ) (ms : Option ℕ) (T ctol : ℝ) (x0 : V3 ℝ × V3 ℝ),
        cowell_method ctol (reverseDyn o) x0 T sa (rkSolver tb interp err) ctrl dt0 ms
          = (cowell_method ctol o' (flip x0) T sa (rkSolver tb interp' err') ctrl' dt0 ms).map
              (Except.map (Sol.map flip)) := by
  refine ⟨{ terms := o.terms, args := o.args, event := o.event.map fun e t y args => e (-t) (flip y) args },
    fun t0 t1 a b t => flip (interp t0 t1 (flip a) (flip b) t), fun t0 t1 a b => flip (err t0 t1 (flip a) (flip b)),
    rfl, rfl, fun {γ} ctrl ctrl' hc sa dt0 ms T ctol x0 => ?_⟩
  refine CallHom.diffeqsolve (φ := flip) (ψ := flip) (θ := id) ?_ ctol
  refine ⟨fun t y => ?_, ?_, hc, rfl, rfl, rfl, (flip_flip x0).symm, rfl, rfl, ?_⟩
  · show (o.terms (-t) (flip y) o.args).map (fun v => -v) = (o.terms t y o.args).map flip
    have e1 := hf t [y.2.x, y.2.y, y.2.z] y.1
    have e2 := hf (-t) [(-y.2).x, (-y.2).y, (-y.2).z] y.1
    rw [ho]
    simp only [secondOrder, flip, e1, e2]
    exact congrArg Except.ok (Prod.ext (V3.ext (neg_neg _) (neg_neg _) (neg_neg _)) rfl)
  · exact rkSolver_hom (φ := flip) (interp := fun t0 t1 a b t => flip (interp t0 t1 (flip a) (flip b) t))
      (err := fun t0 t1 a b => flip (err t0 t1 (flip a) (flip b))) (interp' := interp) (err' := err)
      (fun a b => Prod.ext rfl (V3.ext (neg_add _ _) (neg_add _ _) (neg_add _ _)))
      (fun k a => Prod.ext rfl (V3.ext (mul_neg _ _).symm (mul_neg _ _).symm (mul_neg _ _).symm)) tb
      (fun t0 t1 a b t => by simp only [flip_flip]) (fun t0 t1 a b => by simp only [flip_flip])
  · show ((o.event.map fun e t y args => e (-t) (flip y) args) = none ∧ (o.event.map fun e t y args => e (-t) y args) = none) ∨
      ∃ e e', (o.event.map fun e t y args => e (-t) (flip y) args) = some e ∧
      (o.event.map fun e t y args => e (-t) y args) = some e' ∧ ∀ t y, e' t (flip y) o.args = e t y o.args
    cases he : o.event with
    | none => exact Or.inl ⟨rfl, rfl⟩
    | some e => exact Or.inr ⟨_, _, rfl, rfl, fun t y => rfl⟩

theorem near_flip {δ : ℝ} {p q : V3 ℝ × V3 ℝ} (h : Near δ p q) : Near δ (flip p) (flip q) := by
  obtain ⟨h1, h2, h3, h4, h5, h6⟩ := h
  have e : ∀ a b : ℝ, |-a - -b| = |a - b| := fun a b => by rw [← abs_neg]; congr 1; ring
  refine ⟨h1, h2, h3, ?_, ?_, ?_⟩
  · show |-p.2.x - -q.2.x| ≤ δ; rw [e]; exact h4
  · show |-p.2.y - -q.2.y| ≤ δ; rw [e]; exact h5
  · show |-p.2.z - -q.2.z| ≤ δ; rw [e]; exact h6

theorem HasDerivV.comp_neg {r : ℝ → V3 ℝ} {v : V3 ℝ} {s : ℝ} (h : HasDerivV r v (-s)) : HasDerivV (fun t => r (-t)) (-v) s := by
  have e := hasDerivAt_neg s
  refine ⟨?_, ?_, ?_⟩
  · have := HasDerivAt.comp s h.x e; rwa [mul_neg_one] at this
  · have := HasDerivAt.comp s h.y e; rwa [mul_neg_one] at this
  · have := HasDerivAt.comp s h.z e; rwa [mul_neg_one] at this

theorem HasDerivV.neg {r : ℝ → V3 ℝ} {v : V3 ℝ} {s : ℝ} (h : HasDerivV r v s) : HasDerivV (fun t => -r t) (-v) s :=
  ⟨h.x.neg, h.y.neg, h.z.neg⟩

/-- C80, convergence backwards: for any force that is smooth away from the centre and any trajectory on `[-T, 0]`. -/
theorem C80_force {acc : ℝ → State ℝ → Args ℝ → Except PyErr (V3 ℝ)} {args : Args ℝ} {r v : ℝ → V3 ℝ} {T A : ℝ}
    (hf : SmoothForce acc args) (hT : 0 < T) (h0 : ∀ s ∈ Set.Icc (-T) 0, r s ≠ ⟨0, 0, 0⟩)
    (hr : ∀ s ∈ Set.Icc (-T) 0, HasDerivV r (v s) s)
    (hv : ∀ s ∈ Set.Icc (-T) 0, ∃ a rest, acc s ⟨r s, rest⟩ args = .ok a ∧ HasDerivV v a s) (hA : 0 ≤ A) :
    ∃ C h0, 0 ≤ C ∧ 0 < h0 ∧ BackClose (secondOrder acc) args r v T A C h0 := by
  have hmem : ∀ s ∈ Set.Icc (0 : ℝ) T, -s ∈ Set.Icc (-T) 0 := fun s hs => ⟨by linarith [hs.2], by linarith [hs.1]⟩
  obtain ⟨C, h1, hC, hh1, hcl⟩ := C73_force (f := acc) (args := args) (r := fun t => r (-t)) (v := fun t => -v (-t)) (T := T)
    (A := A) hf hT (fun s hs => h0 _ (hmem s hs)) (fun s hs => (hr _ (hmem s hs)).comp_neg)
    (fun s hs => by
      obtain ⟨a, rest, e, hd⟩ := hv _ (hmem s hs)
      refine ⟨a, rest, ?_, ?_⟩
      · rw [hf.ok] at e ⊢; exact e
      · have := hd.comp_neg.neg
        rwa [show - -a = a from V3.ext (neg_neg _) (neg_neg _) (neg_neg _)] at this) hA
  refine ⟨C, h1, hC, hh1, fun o tb interp err β ctol η x0 ms s ho hoa hne hR hc hx0 => ?_⟩
  have hfield : IsField acc o.args (accOf acc args) := fun t rest p => by rw [hoa]; exact hf.ok t ⟨p, rest⟩
  obtain ⟨o', interp', err', ho', hoa', hrun⟩ := back_run hfield ho tb interp err
  have hx : Near η (flip x0) (r (-0), -v (-0)) := by
    rw [neg_zero]
    exact near_flip hx0
  have hcl' := fun s' => hcl o' tb interp' err' β ctol η (flip x0) ms s' (ho'.trans ho) (hoa'.trans hoa) hne hR hc hx
  have fin : ∀ (s' : Sol ℝ (V3 ℝ × V3 ℝ)) (δ : ℝ),
      (∀ p ∈ s'.saved, 0 ≤ p.1 ∧ p.1 ≤ T ∧ Near δ p.2 (r (-p.1), -v (-p.1))) →
      ∀ p ∈ ((Sol.map flip s').negTimes).saved, -T ≤ p.1 ∧ p.1 ≤ 0 ∧ Near δ p.2 (r p.1, v p.1) := by
    intro s' δ h p hp
    simp only [Sol.map, Sol.negTimes, List.map_map, List.mem_map] at hp
    obtain ⟨q, hq, rfl⟩ := hp
    obtain ⟨a, b, c⟩ := h q hq
    refine ⟨neg_le_neg b, by simpa using a, ?_⟩
    have := near_flip c
    rwa [show flip (r (-q.1), -v (-q.1)) = (r (-q.1), v (-q.1)) from flip_flip (r (-q.1), v (-q.1))] at this
  refine ⟨fun dt hdt hle h => ?_, fun γ ctrl P H hval hH hle h hch => ?_⟩
  · rw [(C80_backward (ctrl := (constantStepSize : Controller ℝ (V3 ℝ × V3 ℝ) ℝ)) (by linarith) hdt.le ms [] {} none
      (by simp)).1] at h
    obtain ⟨s1, h2, rfl⟩ := map_ok h
    have e : fixed_steps ctol (reverseDyn o) x0 T (-dt) (rkSolver tb interp err) ms
        = (fixed_steps ctol o' (flip x0) T (-dt) (rkSolver tb interp' err') ms).map (Except.map (Sol.map flip)) :=
      hrun constantStepSize constantStepSize (constant_hom _) { t0 := true, steps := true } (some (-dt)) ms T ctol _
    rw [neg_neg, e] at h2
    obtain ⟨s2, h3, rfl⟩ := map_ok h2
    exact fin s2 _ ((hcl' s2).1 (-dt) (by linarith) hle h3)
  · rw [(C80_backward (dt := 0) (by linarith) le_rfl ms [] {} none (by simp)).2.1] at h
    obtain ⟨s1, h2, rfl⟩ := map_ok h
    have e : adaptive_steps ctol (reverseDyn o) x0 T (rkSolver tb interp err) ctrl ms
        = (adaptive_steps ctol o' (flip x0) T (rkSolver tb interp' err') (flipCtrl ctrl) ms).map
          (Except.map (Sol.map flip)) :=
      hrun ctrl (flipCtrl ctrl) (flipCtrl_hom ctrl) { t0 := true, steps := true } none ms T ctol _
    rw [neg_neg, e] at h2
    obtain ⟨s2, h3, rfl⟩ := map_ok h2
    refine fin s2 _ ((hcl' s2).2 γ (flipCtrl ctrl) P H (flipCtrl_valid hval) hH hle h3 ?_)
    simp only [Sol.map, Sol.negTimes, List.map_map, List.isChain_map, Function.comp_def] at hch
    exact hch.imp fun p q hpq => by linarith

/-- C80, point mass: propagating backwards is close to `exactProp`, the motion `kepler` computes, at negative times. -/
theorem C80_kepler {mu T A : ℝ} {args : Args ℝ} {r v : V3 ℝ} (hm : args "mu" = some mu) (hmu : 0 < mu)
    (hh : angular_momentum r v ≠ ⟨0, 0, 0⟩) (hT : 0 < T) (hA : 0 ≤ A) :
    exactProp r v mu 0 = (r, v) ∧ ∃ C h0, 0 ≤ C ∧ 0 < h0 ∧
      BackClose (secondOrder point_mass_grav) args (fun t => (exactProp r v mu t).1) (fun t => (exactProp r v mu t).2)
        T A C h0 := by
  obtain ⟨e, h⟩ := C21_solves_two_body hmu hh
  refine ⟨e, C80_force (smooth_point_mass hm) hT (fun s _ => (h s (Set.mem_univ s)).1)
    (fun s _ => (h s (Set.mem_univ s)).2.1) (fun s _ => ?_) hA⟩
  obtain ⟨a, e1, e2⟩ := C21_acceleration_is_point_mass_grav hmu hh s [] args hm
  exact ⟨a, [], e1, e2⟩

/-- C80, limit: if the weights sum to 1 the state returned by `fixed_steps` at `-T` is as close as wanted to the state
`kepler` computes for `-T`, for every step short enough. -/
theorem C80_limit {mu T A : ℝ} {r v : V3 ℝ} {o : OrbDynx ℝ (V3 ℝ × V3 ℝ)} (ho : o.terms = secondOrder point_mass_grav)
    (hm : o.args "mu" = some mu) (he : o.event = none) (hmu : 0 < mu) (hh : angular_momentum r v ≠ ⟨0, 0, 0⟩) (hT : 0 < T)
    (hA : 0 ≤ A) {tb : Tableau ℝ} (hne : tb.rows ≠ []) (hR : RowsOk A 1 tb.rows 1)
    (interp : ℝ → ℝ → V3 ℝ × V3 ℝ → V3 ℝ × V3 ℝ → ℝ → V3 ℝ × V3 ℝ)
    (err : ℝ → ℝ → V3 ℝ × V3 ℝ → V3 ℝ × V3 ℝ → V3 ℝ × V3 ℝ) {ε : ℝ} (hε : 0 < ε) :
    ∃ δ > 0, ∀ dt ctol : ℝ, dt < 0 → 0 ≤ ctol → -dt + ctol ≤ δ → ∀ m : ℕ, m * dt ≤ -T →
      ∃ s y, fixed_steps_any ctol o (r, v) (-T) dt (rkSolver tb interp err) (some m) = some (.ok s) ∧
        s.saved.getLast? = some (-T, y) ∧ Near ε y (exactProp r v mu (-T)) := by
  obtain ⟨e0, C, h0, hC, hh0, hcl⟩ := C80_kepler (args := o.args) hm hmu hh hT hA
  refine ⟨min h0 (ε / (C + 1)), by positivity, fun dt ctol hdt hc hle m hmT => ?_⟩
  have hle1 : -dt + ctol + |(1 : ℝ) - 1| + 0 ≤ h0 := by simpa using hle.trans (min_le_left _ _)
  obtain ⟨s, hs, hev⟩ := C80_fixed_completes (o := o) (x0 := (r, v)) (t1 := -T) (dt := dt) (solver := rkSolver tb interp err)
    (m := m) (v := (v, (-(mu / V3.norm r ^ 3)) • r)) hc (by linarith) hdt he (by
      rw [ho]; simp only [secondOrder, C41_point_mass_is_newton 0 mu _ o.args hm]; rfl) hmT
  obtain ⟨rest, -, -, -, -, -, -, hlast⟩ := C80_fixed hc (by linarith) hdt hs
  obtain ⟨y, hy⟩ := hlast hev
  refine ⟨s, y, hs, hy, ?_⟩
  have := (hcl o tb interp err 1 ctol 0 (r, v) (some m) s ho rfl hne hR hc (by
    show Near 0 (r, v) (exactProp r v mu 0)
    rw [e0]; exact near_self _)).1 dt hdt hle1
  have h3 := (this hs (-T, y) (List.mem_of_getLast? hy)).2.2
  have hle2 : -dt + ctol ≤ ε / (C + 1) := hle.trans (min_le_right _ _)
  rw [le_div_iff₀ (by positivity)] at hle2
  have hb : C * (-dt + ctol + |(1 : ℝ) - 1| + 0) ≤ ε := by
    rw [sub_self, abs_zero, add_zero, add_zero]; nlinarith
  obtain ⟨a1, a2, a3, a4, a5, a6⟩ := h3
  exact ⟨a1.trans hb, a2.trans hb, a3.trans hb, a4.trans hb, a5.trans hb, a6.trans hb⟩

/-- The hypotheses can be met: a circular orbit, Heun's method. -/
example : ∃ δ > 0, ∀ dt ctol : ℝ, dt < 0 → 0 ≤ ctol → -dt + ctol ≤ δ → ∀ m : ℕ, m * dt ≤ -10 →
    ∃ s y, fixed_steps_any ctol { terms := secondOrder point_mass_grav } ((⟨1, 0, 0⟩, ⟨0, 1, 0⟩) : V3 ℝ × V3 ℝ) (-10) dt
        (rkSolver heun (fun _ _ y _ _ => y) (fun _ _ y _ => y)) (some m) = some (.ok s) ∧
      s.saved.getLast? = some (-10, y) ∧ Near (1 / 1000) y (exactProp ⟨1, 0, 0⟩ ⟨0, 1, 0⟩ 1 (-10)) :=
  C80_limit rfl (by simp [defaultArgs]) rfl one_pos (by simp [angular_momentum, V3.cross]) (by norm_num) zero_le_one
    (by simp [heun]) heun_ok _ _ (by norm_num)

end Adx
