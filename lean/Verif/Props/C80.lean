import Verif.Model.CowellBack
import Verif.Props.C46
import Verif.Props.C73
import Verif.Props.C74

/-! # C80: propagating backwards

Exact arithmetic. `*_any` are the propagators for either sign of `t1` (`Model/CowellBack.lean`). -/

namespace Adx
open V3 Spec

section
variable {Y σ γ : Type} [Neg Y] {o : OrbDynx ℝ Y} {x0 : Y} {t1 dt ctol : ℝ} {solver : Solver ℝ Y σ} {ctrl : Controller ℝ Y γ}

/-- The dynamics with time running backwards. -/
def reverseDyn (o : OrbDynx ℝ Y) : OrbDynx ℝ Y where
  terms t y args := (o.terms (-t) y args).map fun v => -v
  args := o.args
  event := o.event.map fun e t y args => e (-t) y args

theorem reverse_cowell (sa : SaveAt ℝ) (dt0 : Option ℝ) (ms : Option ℕ) :
    reverseCall (cowellCall o x0 t1 sa dt0 ms solver ctrl)
      = cowellCall (reverseDyn o) x0 (-t1) { sa with ts := sa.ts.map fun t => -t } (dt0.map fun h => -h) ms solver ctrl := by
  simp [reverseCall, cowellCall, reverseDyn]

theorem fixed_eq_cowell (ms : Option ℕ) : fixedCall o x0 t1 dt ms solver
    = cowellCall o x0 t1 { t0 := true, steps := true } (some dt) ms solver constantStepSize := rfl

/-- The sign test of `dt0`. -/
theorem diffeqsolveDir_neg {c : Call ℝ Y σ γ} (h1 : c.t1 < c.t0) (h2 : ∀ h, c.dt0 = some h → h ≤ 0) :
    diffeqsolveDir ctol c = (diffeqsolve ctol (reverseCall c)).map (Except.map Sol.negTimes) := by
  have e1 : (JFun.lt c.t0 c.t1) = false := by simp [lt_real, h1.le]
  unfold diffeqsolveDir
  cases hd : c.dt0 with
  | none => simp only [e1, Bool.false_eq_true, if_false]
  | some h =>
    have := h2 h hd
    have e2 : JFun.lt ((c.t1 - c.t0) * h) (ℓ 0) = false := by
      simp only [lt_real, decide_eq_false_iff_not, not_lt]
      push_cast
      exact mul_nonneg_of_nonpos_of_nonpos (by linarith) this
    simp only [e1, e2, Bool.false_eq_true, if_false]

theorem diffeqsolveDir_pos {c : Call ℝ Y σ γ} (h1 : c.t0 < c.t1) (h2 : ∀ h, c.dt0 = some h → 0 ≤ h) :
    diffeqsolveDir ctol c = diffeqsolve ctol c := by
  have e1 : (JFun.lt c.t0 c.t1) = true := by simp [lt_real, h1]
  unfold diffeqsolveDir
  cases hd : c.dt0 with
  | none => simp only [e1, Bool.false_eq_true, if_false, if_true]
  | some h =>
    have := h2 h hd
    have e2 : JFun.lt ((c.t1 - c.t0) * h) (ℓ 0) = false := by
      simp only [lt_real, decide_eq_false_iff_not, not_lt]
      push_cast
      exact mul_nonneg (by linarith) this
    simp only [e1, e2, Bool.false_eq_true, if_false, if_true]

/-- C80: for a positive final time (and a step that is not negative) the propagators are those of C45, C46, C73, C74. -/
theorem C80_forward (h01 : 0 < t1) (hdt : 0 ≤ dt) (ms : Option ℕ) (ts : List ℝ) (sa : SaveAt ℝ) (dt0 : Option ℝ)
    (hd : ∀ h, dt0 = some h → 0 ≤ h) :
    fixed_steps_any ctol o x0 t1 dt solver ms = fixed_steps ctol o x0 t1 dt solver ms ∧
    adaptive_steps_any ctol o x0 t1 solver ctrl ms = adaptive_steps ctol o x0 t1 solver ctrl ms ∧
    custom_steps_any ctol o x0 t1 ts solver ctrl = custom_steps ctol o x0 t1 ts solver ctrl ∧
    to_final_any ctol o x0 t1 solver ctrl = to_final ctol o x0 t1 solver ctrl ∧
    cowell_method_any ctol o x0 t1 sa solver ctrl dt0 ms = cowell_method ctol o x0 t1 sa solver ctrl dt0 ms := by
  have h0 : ((0 : ℕ) : ℝ) < t1 := by simpa using h01
  refine ⟨diffeqsolveDir_pos h0 fun h e => ?_, diffeqsolveDir_pos h0 fun h e => ?_, diffeqsolveDir_pos h0 fun h e => ?_,
    diffeqsolveDir_pos h0 fun h e => ?_, diffeqsolveDir_pos h0 hd⟩
  · cases e; exact hdt
  all_goals cases e

/-- C80: a step of the wrong sign is refused. -/
theorem C80_wrong_sign (h : t1 * dt < 0) (ms : Option ℕ) (sa : SaveAt ℝ) :
    fixed_steps_any ctol o x0 t1 dt solver ms = some (.error .badDt0) ∧
    cowell_method_any ctol o x0 t1 sa solver ctrl (some dt) ms = some (.error .badDt0) := by
  have e : JFun.lt ((t1 - ((0 : ℕ) : ℝ)) * dt) ((0 : ℕ) : ℝ) = true := by
    simp only [Nat.cast_zero, sub_zero, lt_real, h, decide_true]
  refine ⟨?_, ?_⟩
  · show (if JFun.lt ((t1 - ((0 : ℕ) : ℝ)) * dt) ((0 : ℕ) : ℝ) = true then _ else _) = _
    rw [if_pos e]
  · show (if JFun.lt ((t1 - ((0 : ℕ) : ℝ)) * dt) ((0 : ℕ) : ℝ) = true then _ else _) = _
    rw [if_pos e]

/-- C80: for a negative final time (and a step that is not positive) each propagator is the forward one for the reversed
dynamics, with the saved times negated. -/
theorem C80_backward (h01 : t1 < 0) (hdt : dt ≤ 0) (ms : Option ℕ) (ts : List ℝ) (sa : SaveAt ℝ) (dt0 : Option ℝ)
    (hd : ∀ h, dt0 = some h → h ≤ 0) :
    fixed_steps_any ctol o x0 t1 dt solver ms
      = (fixed_steps ctol (reverseDyn o) x0 (-t1) (-dt) solver ms).map (Except.map Sol.negTimes) ∧
    adaptive_steps_any ctol o x0 t1 solver ctrl ms
      = (adaptive_steps ctol (reverseDyn o) x0 (-t1) solver ctrl ms).map (Except.map Sol.negTimes) ∧
    custom_steps_any ctol o x0 t1 ts solver ctrl
      = (custom_steps ctol (reverseDyn o) x0 (-t1) (ts.map fun t => -t) solver ctrl).map (Except.map Sol.negTimes) ∧
    to_final_any ctol o x0 t1 solver ctrl
      = (to_final ctol (reverseDyn o) x0 (-t1) solver ctrl).map (Except.map Sol.negTimes) ∧
    cowell_method_any ctol o x0 t1 sa solver ctrl dt0 ms
      = (cowell_method ctol (reverseDyn o) x0 (-t1) { sa with ts := sa.ts.map fun t => -t } solver ctrl
          (dt0.map fun h => -h) ms).map (Except.map Sol.negTimes) := by
  have h0 : t1 < ((0 : ℕ) : ℝ) := by simpa using h01
  have key : ∀ {γ : Type} {ctrl : Controller ℝ Y γ} (sa : SaveAt ℝ) (dt0 : Option ℝ) (ms : Option ℕ),
      (∀ h, dt0 = some h → h ≤ 0) → diffeqsolveDir ctol (cowellCall o x0 t1 sa dt0 ms solver ctrl)
      = (diffeqsolve ctol (cowellCall (reverseDyn o) x0 (-t1) { sa with ts := sa.ts.map fun t => -t }
          (dt0.map fun h => -h) ms solver ctrl)).map (Except.map Sol.negTimes) := by
    intro γ ctrl sa dt0 ms hd
    rw [← reverse_cowell]
    exact diffeqsolveDir_neg h0 hd
  exact ⟨key { t0 := true, steps := true } (some dt) ms fun h e => by cases e; exact hdt,
    key { t0 := true, steps := true } none ms fun h e => (by cases e), key { ts := ts } none none fun h e => (by cases e),
    key { t1 := true } none (some 4096) fun h e => (by cases e), key sa dt0 ms hd⟩

/-! ## What is returned -/

/-- What a step-saving run backwards returns: the initial state at time 0; then every kept step in order, each made from the
entry before it, at strictly decreasing times; at most `max_steps` of them; none beyond `t1`; the last one at `t1` unless an
event stopped the run. A step from `a` down to `b` is a step of the solver from `-a` to `-b` with the field `-f(-t, y)`. -/
def BackContract (o : OrbDynx ℝ Y) (x0 : Y) (t1 : ℝ) (solver : Solver ℝ Y σ) (ms : Option ℕ) (s : Sol ℝ Y) : Prop :=
  ∃ rest, s.saved = (0, x0) :: rest ∧
    (s.saved.map Prod.fst).Pairwise (· > ·) ∧
    (∃ f : ℝ → Y → Y, (∀ t y v, o.terms t y o.args = .ok v → f t y = -v) ∧
      s.saved.IsChain fun p q => ∃ st, q.2 = (solver.step (fun t y => f (-t) y) (-p.1) (-q.1) p.2 st).1) ∧
    rest.length ≤ s.num_steps ∧ (∀ m, ms = some m → s.num_steps ≤ m) ∧
    (∀ p ∈ s.saved, t1 ≤ p.1) ∧
    (s.event = false → ∃ y, s.saved.getLast? = some (t1, y))

theorem map_ok {res : Option (Except DiffErr (Sol ℝ Y))} {F : Sol ℝ Y → Sol ℝ Y} {s : Sol ℝ Y}
    (h : res.map (Except.map F) = some (.ok s)) : ∃ s', res = some (.ok s') ∧ s = F s' := by
  rcases res with _ | e | s'
  · cases h
  · cases h
  · simp only [Option.map_some, Except.map, Option.some.injEq, Except.ok.injEq] at h
    exact ⟨s', rfl, h.symm⟩

theorem back_contract {s : Sol ℝ Y} {ms : Option ℕ} (h : StepsContract (reverseDyn o) x0 (-t1) solver ms s) :
    BackContract o x0 t1 solver ms s.negTimes := by
  obtain ⟨rest, h1, h2, ⟨f, hf, h3⟩, h4, h5, h6, h7⟩ := h
  refine ⟨rest.map fun p => (-p.1, p.2), by simp [Sol.negTimes, h1], ?_, ⟨fun t y => f (-t) y, fun t y v hv => ?_, ?_⟩,
    by simpa [Sol.negTimes] using h4, h5, ?_, fun he => ?_⟩
  · have e : (s.negTimes.saved.map Prod.fst) = (s.saved.map Prod.fst).map fun t => -t := by
      simp [Sol.negTimes, List.map_map, Function.comp_def]
    rw [e, List.pairwise_map]
    exact h2.imp fun {a b} hab => neg_lt_neg hab
  · refine hf (-t) y (-v) ?_
    show (o.terms (- -t) y o.args).map (fun v => -v) = _
    rw [neg_neg, hv]; rfl
  · simp only [Sol.negTimes, List.isChain_map, neg_neg]
    exact h3
  · intro p hp
    simp only [Sol.negTimes, List.mem_map] at hp
    obtain ⟨q, hq, rfl⟩ := hp
    have := h6 q hq
    show t1 ≤ -q.1
    linarith
  · obtain ⟨y, hy⟩ := h7 he
    refine ⟨y, ?_⟩
    simp only [Sol.negTimes, List.getLast?_map, hy, Option.map_some, neg_neg]

/-- C80, `fixed_steps` backwards: the mirror image of the contract of C45. -/
theorem C80_fixed {s : Sol ℝ Y} {ms : Option ℕ} (hc : 0 ≤ ctol) (h01 : t1 < 0) (hdt : dt < 0)
    (h : fixed_steps_any ctol o x0 t1 dt solver ms = some (.ok s)) : BackContract o x0 t1 solver ms s := by
  rw [(C80_backward (ctrl := (constantStepSize : Controller ℝ Y ℝ)) h01 hdt.le ms [] {} none (by simp)).1] at h
  obtain ⟨s', hs, rfl⟩ := map_ok h
  exact back_contract (C45_fixed hc (by linarith) (by linarith) hs)

/-- C80, `adaptive_steps` backwards. -/
theorem C80_adaptive {s : Sol ℝ Y} {ms : Option ℕ} {P : γ → Prop} (hc : 0 ≤ ctol) (h01 : t1 < 0)
    (hv : ctrl.Valid none P) (h : adaptive_steps_any ctol o x0 t1 solver ctrl ms = some (.ok s)) :
    BackContract o x0 t1 solver ms s := by
  rw [(C80_backward (dt := 0) h01 le_rfl ms [] {} none (by simp)).2.1] at h
  obtain ⟨s', hs, rfl⟩ := map_ok h
  exact back_contract (C45_adaptive hc (by linarith) hv hs)

/-- C80, `fixed_steps` backwards: the saved times are `0, dt, 2 dt, …` except the last one, which is `t1` when no event
occurs. -/
theorem C80_fixed_times {s : Sol ℝ Y} {ms : Option ℕ} (hc : 0 ≤ ctol) (h01 : t1 < 0) (hdt : dt < 0)
    (h : fixed_steps_any ctol o x0 t1 dt solver ms = some (.ok s)) :
    ∃ last, s.saved.map Prod.fst = ((List.range s.num_steps).map fun i : ℕ => (i : ℝ) * dt) ++ [last] ∧
      (last = s.num_steps * dt ∨ last = t1) ∧
      (s.event = false → last = t1 ∧ 1 ≤ s.num_steps ∧ t1 < (s.num_steps - 1 : ℝ) * dt ∧
        s.num_steps * dt - ctol ≤ t1) := by
  rw [(C80_backward (ctrl := (constantStepSize : Controller ℝ Y ℝ)) h01 hdt.le ms [] {} none (by simp)).1] at h
  obtain ⟨s', hs, rfl⟩ := map_ok h
  obtain ⟨last, e1, e2, e3⟩ := C45_fixed_times hc (by linarith) (by linarith) hs
  refine ⟨-last, ?_, ?_, fun he => ?_⟩
  · have e : (s'.negTimes.saved.map Prod.fst) = (s'.saved.map Prod.fst).map fun t => -t := by
      simp [Sol.negTimes, List.map_map, Function.comp_def]
    rw [e, e1, List.map_append, List.map_map]
    simp [Sol.negTimes, Function.comp_def]
  · rcases e2 with e2 | e2
    · left; rw [e2]; show -(s'.num_steps * -dt) = s'.num_steps * dt; ring
    · right; rw [e2, neg_neg]
  · obtain ⟨a, b, c, d⟩ := e3 he
    refine ⟨by rw [a, neg_neg], b, ?_, ?_⟩
    · show t1 < ((s'.num_steps : ℝ) - 1) * dt
      have : ((s'.num_steps : ℝ) - 1) * -dt = -(((s'.num_steps : ℝ) - 1) * dt) := by ring
      linarith
    · show (s'.num_steps : ℝ) * dt - ctol ≤ t1
      have : (s'.num_steps : ℝ) * -dt = -((s'.num_steps : ℝ) * dt) := by ring
      linarith

/-- C80, `fixed_steps` backwards completes as soon as `max_steps` steps cover `t1`. -/
theorem C80_fixed_completes {m : ℕ} (hc : 0 ≤ ctol) (h01 : t1 < 0) (hdt : dt < 0)
    (he : o.event = none) {v : Y} (hf : o.terms 0 x0 o.args = .ok v) (hm : m * dt ≤ t1) :
    ∃ s, fixed_steps_any ctol o x0 t1 dt solver (some m) = some (.ok s) ∧ s.event = false := by
  obtain ⟨s, hs, hev⟩ := C45_fixed_completes (o := reverseDyn o) (x0 := x0) (t1 := -t1) (dt := -dt) (solver := solver)
    (m := m) (v := -v) hc (by linarith) (by linarith) (by simp [reverseDyn, he])
    (by show (o.terms (-0) x0 o.args).map (fun v => -v) = _; rw [neg_zero, hf]; rfl)
    (by have : (m : ℝ) * -dt = -(m * dt) := by ring
        linarith)
  refine ⟨s.negTimes, ?_, hev⟩
  rw [(C80_backward (ctrl := (constantStepSize : Controller ℝ Y ℝ)) h01 hdt.le (some m) [] {} none (by simp)).1, hs]
  rfl

/-- C80, `custom_steps` backwards: the requested times must be in decreasing order, between 0 and `t1`; otherwise the call is
refused. -/
theorem C80_custom_refused {ts : List ℝ} (h01 : t1 < 0)
    (h : ¬ ((∀ t ∈ ts, t1 ≤ t ∧ t ≤ 0) ∧ ts.Pairwise (· ≥ ·))) :
    custom_steps_any ctol o x0 t1 ts solver ctrl = some (.error .badTs) := by
  rw [(C80_backward (dt := 0) h01 le_rfl none ts {} none (by simp)).2.2.1, C45_custom_refused]
  · rfl
  · rintro ⟨a, b⟩
    refine h ⟨fun t ht => ?_, ?_⟩
    · obtain ⟨c, d⟩ := a (-t) (List.mem_map.2 ⟨t, ht, rfl⟩)
      exact ⟨by linarith, by linarith⟩
    · rw [List.pairwise_map] at b
      exact b.imp fun {p q} hpq => neg_le_neg_iff.1 hpq

/-- C80, `custom_steps` backwards: the entries are at the requested times, in order, all of them unless an event stops the
run; each value is read off the interpolation over the step containing the time. -/
theorem C80_custom {s : Sol ℝ Y} {ts : List ℝ} {P : γ → Prop} (hc : 0 ≤ ctol) (h01 : t1 < 0) (hv : ctrl.Valid none P)
    (h : custom_steps_any ctol o x0 t1 ts solver ctrl = some (.ok s)) :
    s.saved.map Prod.fst <+: ts ∧ (s.event = false → s.saved.map Prod.fst = ts) ∧
    ∃ f : ℝ → Y → Y, (∀ t y v, o.terms t y o.args = .ok v → f t y = -v) ∧
      ∀ p ∈ s.saved, ∃ a b ya st, b < a ∧ (p.1 < a ∨ (a = 0 ∧ p.1 = 0)) ∧ b ≤ p.1 ∧
        p.2 = (solver.step (fun t y => f (-t) y) (-a) (-b) ya st).2.1 (-p.1) := by
  rw [(C80_backward (dt := 0) h01 le_rfl none ts {} none (by simp)).2.2.1] at h
  obtain ⟨s', hs, rfl⟩ := map_ok h
  obtain ⟨h1, h2, f, hf, h3⟩ := C45_custom hc (by linarith) hv hs
  have e : (s'.negTimes.saved.map Prod.fst) = (s'.saved.map Prod.fst).map fun t => -t := by
    simp [Sol.negTimes, List.map_map, Function.comp_def]
  have ets : (ts.map fun t => -t).map (fun t => -t) = ts := by simp [List.map_map, Function.comp_def]
  refine ⟨?_, fun he => by rw [e, h2 he, ets], fun t y => f (-t) y, fun t y v hv' => ?_, fun p hp => ?_⟩
  · rw [e]; rw [← ets]; exact h1.map _
  · refine hf (-t) y (-v) ?_
    show (o.terms (- -t) y o.args).map (fun v => -v) = _
    rw [neg_neg, hv']; rfl
  · simp only [Sol.negTimes, List.mem_map] at hp
    obtain ⟨q, hq, rfl⟩ := hp
    obtain ⟨a, b, ya, st, k1, k2, k3, k4⟩ := h3 q hq
    refine ⟨-a, -b, ya, st, neg_lt_neg k1, ?_, neg_le_neg k3, by simp only [neg_neg]; exact k4⟩
    rcases k2 with k2 | ⟨k2, k2'⟩
    · exact Or.inl (neg_lt_neg k2)
    · exact Or.inr ⟨by rw [k2, neg_zero], by rw [k2', neg_zero]⟩

/-- C80, `to_final` backwards: exactly one entry, at `t1` unless an event stops the run. -/
theorem C80_final {s : Sol ℝ Y} {P : γ → Prop} (hc : 0 ≤ ctol) (h01 : t1 < 0) (hv : ctrl.Valid none P)
    (h : to_final_any ctol o x0 t1 solver ctrl = some (.ok s)) :
    ∃ t y, s.saved = [(t, y)] ∧ t1 ≤ t ∧ (s.event = false → t = t1) ∧ s.num_steps ≤ 4096 := by
  rw [(C80_backward (dt := 0) h01 le_rfl none [] {} none (by simp)).2.2.2.1] at h
  obtain ⟨s', hs, rfl⟩ := map_ok h
  obtain ⟨t, y, e1, e2, e3, e4⟩ := C45_final hc (by linarith) hv hs
  exact ⟨-t, y, by simp [Sol.negTimes, e1], by linarith, fun he => by rw [e3 he, neg_neg], e4⟩

end

end Adx
