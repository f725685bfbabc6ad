import Verif.Model.Cowell
import Verif.Lemmas.While
import Verif.Lemmas.RealVec
import Mathlib.Data.List.Chain

/-! # The integration loop unrolled -/

set_option linter.unusedSectionVars false

namespace Adx

section anyArith
variable {α : Type} [Add α] [Sub α] [Neg α] [Mul α] [Div α] [Pow α ℕ] [NatCast α] [JFun α]
variable {Y σ γ : Type}

/-- The loop state after `k` iterations. -/
def coreAt (ctol : α) (c : Call α Y σ γ) (f : α → Y → Y) (g : Option (α → Y → α)) (first : α × γ)
    (k : ℕ) : Core α Y σ γ := (coreStep ctol c f g)^[k] (coreInit c f g first)

/-- What has been saved after the states `cores 1, …, cores k`. -/
def savesAt (sa : SaveAt α) (cores : ℕ → Core α Y σ γ) (w0 : Save α Y) : ℕ → Save α Y
  | 0 => w0
  | k + 1 => saveStep sa (cores (k + 1)) (savesAt sa cores w0 k)

/-- The kept states among `cores 1, …, cores k`, newest first, then `p0`. -/
def keptRev (p0 : α × Y) (cores : ℕ → Core α Y σ γ) : ℕ → List (α × Y)
  | 0 => [p0]
  | k + 1 => if (cores (k + 1)).kept then
      ((cores (k + 1)).tprev, (cores (k + 1)).y) :: keptRev p0 cores k else keptRev p0 cores k

variable (ctol : α) (c : Call α Y σ γ) (f : α → Y → Y) (g : Option (α → Y → α)) (first : α × γ)

theorem coreAt_succ (k : ℕ) :
    coreAt ctol c f g first (k + 1) = coreStep ctol c f g (coreAt ctol c f g first k) := by
  simp only [coreAt, Function.iterate_succ_apply']

theorem num_steps_coreStep (s : Core α Y σ γ) : (coreStep ctol c f g s).num_steps = s.num_steps + 1 := by
  unfold coreStep; dsimp only; split_ifs <;> rfl

theorem num_steps_coreAt (k : ℕ) : (coreAt ctol c f g first k).num_steps = k := by
  induction k with
  | zero => rfl
  | succ k ih => rw [coreAt_succ, num_steps_coreStep, ih]

theorem pair_iterate (w0 : Save α Y) (k : ℕ) :
    (fun s : Core α Y σ γ × Save α Y => let s' := coreStep ctol c f g s.1
              (s', saveStep c.saveat s' s.2))^[k] (coreInit c f g first, w0)
      = (coreAt ctol c f g first k, savesAt c.saveat (coreAt ctol c f g first) w0 k) := by
  induction k with
  | zero => rfl
  | succ k ih => rw [Function.iterate_succ_apply', ih]; simp only [savesAt, coreAt_succ]

/-- What `diffeqLoop` returns, if it returns. -/
theorem diffeqLoop_some {res : Except DiffErr (Sol α Y)} (h : diffeqLoop ctol c f g first = some res) :
    ∃ k, (∀ j < k, loopCond c.t1 c.max_steps (coreAt ctol c f g first j) = true) ∧
      loopCond c.t1 c.max_steps (coreAt ctol c f g first k) = false ∧
      res = if running c.t1 (coreAt ctol c f g first k) then .error .maxSteps
        else .ok { saved := (savesAt c.saveat (coreAt ctol c f g first)
                      (if c.saveat.t0 then [(c.t0, c.y0)] else [], c.saveat.ts) k).1
                    ++ (if c.saveat.t1 then [((coreAt ctol c f g first k).tprev,
                          (coreAt ctol c f g first k).y)] else []),
                   event := (coreAt ctol c f g first k).event, num_steps := k } := by
  unfold diffeqLoop at h
  rw [Option.map_eq_some_iff] at h
  obtain ⟨s, hs, rfl⟩ := h
  obtain ⟨k, rfl, h1, h2⟩ := ((whileLoop_eq_some_iff _ _ _ _).1 hs).exists_iterate
  rw [pair_iterate] at h1 ⊢
  refine ⟨k, fun j hj => ?_, h1, ?_⟩
  · have := h2 j hj; rwa [pair_iterate] at this
  · simp only [num_steps_coreAt]

/-- The converse. -/
theorem diffeqLoop_of {k : ℕ} (h1 : ∀ j < k, loopCond c.t1 c.max_steps (coreAt ctol c f g first j) = true)
    (h2 : loopCond c.t1 c.max_steps (coreAt ctol c f g first k) = false) :
    diffeqLoop ctol c f g first = some (if running c.t1 (coreAt ctol c f g first k) then .error .maxSteps
        else .ok { saved := (savesAt c.saveat (coreAt ctol c f g first)
                      (if c.saveat.t0 then [(c.t0, c.y0)] else [], c.saveat.ts) k).1
                    ++ (if c.saveat.t1 then [((coreAt ctol c f g first k).tprev,
                          (coreAt ctol c f g first k).y)] else []),
                   event := (coreAt ctol c f g first k).event, num_steps := k }) := by
  unfold diffeqLoop
  rw [whileLoop_of_iterate _ _ k]
  · rw [pair_iterate, Option.map_some]
    simp only [num_steps_coreAt]
  · intro j hj; rw [pair_iterate]; exact h1 j hj
  · rw [pair_iterate]; exact h2

/-- With an iteration limit the loop always returns. -/
theorem diffeqLoop_isSome {m : ℕ} (hm : c.max_steps = some m) :
    (diffeqLoop ctol c f g first).isSome := by
  unfold diffeqLoop
  rw [Option.isSome_map, Option.isSome_iff_ne_none, ne_eq, whileLoop_eq_none_iff]
  intro h
  have := h m
  rw [pair_iterate] at this
  simp only [loopCond, hm, num_steps_coreAt, lt_irrefl, decide_false, Bool.and_false,
    Bool.false_eq_true] at this

/-- A returned run made at most `max_steps` iterations, and each of them while running. -/
theorem loop_facts {k : ℕ} {t1 : α} {ms : Option ℕ}
    (h : ∀ j < k, loopCond t1 ms (coreAt ctol c f g first j) = true) :
    (∀ j < k, running t1 (coreAt ctol c f g first j) = true) ∧ ∀ m, ms = some m → k ≤ m := by
  refine ⟨fun j hj => ?_, ?_⟩
  · have := h j hj
    simp only [loopCond, Bool.and_eq_true] at this
    exact this.1
  · rintro m rfl
    rcases Nat.eq_zero_or_pos k with rfl | hk
    · omega
    have := h (k - 1) (by omega)
    simp only [loopCond, num_steps_coreAt, Bool.and_eq_true, decide_eq_true_eq] at this
    omega

/-- What `diffeqLoop` returns on success. -/
theorem diffeqLoop_ok {s : Sol α Y} (h : diffeqLoop ctol c f g first = some (.ok s)) :
    ∃ k, (∀ j < k, running c.t1 (coreAt ctol c f g first j) = true) ∧
      (∀ m, c.max_steps = some m → k ≤ m) ∧ running c.t1 (coreAt ctol c f g first k) = false ∧
      s = { saved := (savesAt c.saveat (coreAt ctol c f g first)
                      (if c.saveat.t0 then [(c.t0, c.y0)] else [], c.saveat.ts) k).1
                    ++ (if c.saveat.t1 then [((coreAt ctol c f g first k).tprev,
                          (coreAt ctol c f g first k).y)] else []),
            event := (coreAt ctol c f g first k).event, num_steps := k } := by
  obtain ⟨k, hj, -, hres⟩ := diffeqLoop_some _ _ _ _ _ h
  obtain ⟨hr, hm⟩ := loop_facts _ _ _ _ _ hj
  by_cases hrun : running c.t1 (coreAt ctol c f g first k) = true
  · rw [if_pos hrun] at hres; cases hres
  · rw [if_neg hrun, Except.ok.injEq] at hres
    exact ⟨k, hr, hm, by simpa using hrun, hres⟩

theorem savesAt_steps (p0 : α × Y) (cores : ℕ → Core α Y σ γ) (sa : SaveAt α) (hs : sa.steps = true)
    (k : ℕ) : savesAt sa cores ([p0], []) k = ((keptRev p0 cores k).reverse, []) := by
  induction k with
  | zero => rfl
  | succ k ih =>
    simp only [savesAt, ih, saveStep, keptRev, hs]
    split_ifs <;> simp

theorem savesAt_none (cores : ℕ → Core α Y σ γ) (sa : SaveAt α) (hs : sa.steps = false) (k : ℕ) :
    savesAt sa cores ([], []) k = ([], []) := by
  induction k with
  | zero => rfl
  | succ k ih =>
    simp only [savesAt, ih, saveStep, hs]
    split_ifs <;> simp_all

theorem savesAt_ts (cores : ℕ → Core α Y σ γ) (sa : SaveAt α) (hs : sa.steps = false) (ts : List α)
    (k : ℕ) : (savesAt sa cores ([], ts) k).1.map Prod.fst ++ (savesAt sa cores ([], ts) k).2 = ts := by
  induction k with
  | zero => rfl
  | succ k ih =>
    simp only [savesAt, saveStep, hs]
    split_ifs with h1 h2
    · simp at h2
    · conv_rhs => rw [← ih]
      simp [Function.comp_def, List.append_assoc]
    · exact ih

theorem keptRev_length (p0 : α × Y) (cores : ℕ → Core α Y σ γ) (k : ℕ) :
    (keptRev p0 cores k).length ≤ k + 1 := by
  induction k with
  | zero => simp [keptRev]
  | succ k ih => 
    simp only [keptRev]
    split_ifs
    · rw [List.length_cons]; omega
    · omega

/-- The states visited do not depend on what is saved. -/
theorem coreAt_congr (c' : Call α Y σ γ) (h1 : c'.solver = c.solver)
    (h2 : c'.stepsize_controller = c.stepsize_controller) (h3 : c'.t0 = c.t0) (h4 : c'.t1 = c.t1)
    (h5 : c'.y0 = c.y0) (k : ℕ) : coreAt ctol c' f g first k = coreAt ctol c f g first k := by
  have hs : coreStep ctol c' f g = coreStep ctol c f g := by
    funext s; simp only [coreStep, h1, h2, h4]
  have hi : coreInit c' f g first = coreInit c f g first := by
    simp only [coreInit, h1, h3, h4, h5]
  simp only [coreAt, hs, hi]

/-- What `diffeqsolve` did if it returned a solution. -/
theorem diffeqsolve_ok {s : Sol α Y} (h : diffeqsolve ctol c = some (.ok s)) :
    tsOk c.t0 c.t1 c.saveat.ts = true ∧
    ∃ f g first, traceTerms c = .ok f ∧ traceEvent c = .ok g ∧
      c.stepsize_controller.init f c.t0 c.t1 c.y0 c.dt0 = .ok first ∧
      diffeqLoop ctol c f g first = some (.ok s) := by
  unfold diffeqsolve at h
  split_ifs at h with h1 h2
  · simp at h
  · simp at h
  · refine ⟨by simpa using h2, ?_⟩
    split at h
    · simp at h
    rename_i f hf
    split at h
    · simp at h
    rename_i g hg
    split at h
    · simp at h
    rename_i first hi
    exact ⟨f, g, first, hf, hg, hi, h⟩

end anyArith

section real
variable {Y σ γ : Type}

theorem jmin_real (a b : ℝ) : jmin a b = min a b := by
  simp only [jmin, lt_real]
  rcases lt_or_ge a b with h | h
  · simp [h, h.le]
  · simp [h, not_lt.2 h]

theorem sgn_real_pos {x : ℝ} : sgn x = 1 ↔ 0 < x := by
  simp only [sgn, lt_real, Nat.cast_zero, decide_eq_true_eq]; split_ifs <;> simp_all
theorem sgn_real_neg {x : ℝ} : sgn x = -1 ↔ x < 0 := by
  simp only [sgn, lt_real, Nat.cast_zero, decide_eq_true_eq]; split_ifs <;> simp_all; linarith

/-- The contract of a step-size controller: a kept step is followed by a step from its end, a rejected
one is retried from its start, and steps have positive length. `P` is an invariant of the controller's
internal state. -/
structure Controller.Valid (k : Controller ℝ Y γ) (dt0 : Option ℝ) (P : γ → Prop) : Prop where
  init : ∀ {f t0 t1 y0 r}, k.init f t0 t1 y0 dt0 = .ok r → t0 < t1 → t0 < r.1 ∧ P r.2
  keep : ∀ {t0 t1 y0 y1 err s}, t0 < t1 → P s → (k.adapt t0 t1 y0 y1 err s).1 = true →
    (k.adapt t0 t1 y0 y1 err s).2.1 = t1 ∧ t1 < (k.adapt t0 t1 y0 y1 err s).2.2.1
  reject : ∀ {t0 t1 y0 y1 err s}, t0 < t1 → P s → (k.adapt t0 t1 y0 y1 err s).1 = false →
    (k.adapt t0 t1 y0 y1 err s).2.1 = t0 ∧ t0 < (k.adapt t0 t1 y0 y1 err s).2.2.1
  pres : ∀ {t0 t1 y0 y1 err s}, t0 < t1 → P s → P (k.adapt t0 t1 y0 y1 err s).2.2.2

/-- The invariant of the loop. -/
structure CoreOk (c : Call ℝ Y σ γ) (P : γ → Prop) (s : Core ℝ Y σ γ) : Prop where
  le : s.tprev ≤ c.t1
  next : s.tprev < c.t1 → s.tprev < s.tnext ∧ s.tnext ≤ c.t1
  ctrl : P s.ctrl

variable {ctol : ℝ} {c : Call ℝ Y σ γ} {f : ℝ → Y → Y} {g : Option (ℝ → Y → ℝ)} {first : ℝ × γ}
  {P : γ → Prop}

theorem coreInit_ok (hv : c.stepsize_controller.Valid c.dt0 P) (h01 : c.t0 < c.t1)
    (hi : c.stepsize_controller.init f c.t0 c.t1 c.y0 c.dt0 = .ok first) :
    CoreOk c P (coreInit c f g first) := by
  obtain ⟨h1, h2⟩ := hv.init hi h01
  refine ⟨h01.le, fun _ => ?_, h2⟩
  simp only [coreInit, jmin_real]
  exact ⟨lt_min h1 h01, min_le_right _ _⟩

/-- One iteration: either a rejected step, which changes neither time nor state, or a kept one. -/
theorem coreStep_ok (hc : 0 ≤ ctol) (hv : c.stepsize_controller.Valid c.dt0 P) {s : Core ℝ Y σ γ}
    (h : CoreOk c P s) (hr : s.tprev < c.t1) :
    CoreOk c P (coreStep ctol c f g s) ∧
    (((coreStep ctol c f g s).kept = false ∧ (coreStep ctol c f g s).tprev = s.tprev ∧
        (coreStep ctol c f g s).y = s.y ∧ (coreStep ctol c f g s).event = s.event ∧
        (coreStep ctol c f g s).event_value = s.event_value) ∨
      ((coreStep ctol c f g s).kept = true ∧ (coreStep ctol c f g s).tprev = s.tnext ∧
        (coreStep ctol c f g s).y = (c.solver.step f s.tprev s.tnext s.y s.solver).1 ∧
        (coreStep ctol c f g s).interp = (c.solver.step f s.tprev s.tnext s.y s.solver).2.1 ∧
        (coreStep ctol c f g s).event_value = evalEvent g s.event_value s.tnext (c.solver.step f s.tprev s.tnext s.y s.solver).1 ∧
        ((coreStep ctol c f g s).event = (g.isSome &&
          decide (sgn (coreStep ctol c f g s).event_value ≠ sgn s.event_value))))) := by
  obtain ⟨h1, h2⟩ := h.next hr
  set r := c.solver.step f s.tprev s.tnext s.y s.solver with hrr
  set a := c.stepsize_controller.adapt s.tprev s.tnext s.y r.1 r.2.2.1 s.ctrl with ha
  have hpres : P a.2.2.2 := hv.pres h1 h.ctrl
  by_cases hk : a.1 = true
  · obtain ⟨h3, h4⟩ := hv.keep h1 h.ctrl (y0 := s.y) (y1 := r.1) (err := r.2.2.1) hk
    rw [← ha] at h3 h4
    have ht : jmin a.2.1 c.t1 = s.tnext := by rw [jmin_real, h3, min_eq_left h2]
    have he : coreStep ctol c f g s = {
        tprev := s.tnext, tnext := clipToEnd ctol s.tnext a.2.2.1 c.t1 true, y := r.1,
        solver := r.2.2.2, ctrl := a.2.2.2, num_steps := s.num_steps + 1,
        event_value := evalEvent g s.event_value s.tnext r.1, event := g.isSome && decide (sgn (evalEvent g s.event_value s.tnext r.1) ≠ sgn s.event_value), kept := true, interp := r.2.1 } := by
      simp only [coreStep, ← hrr, ← ha, hk, if_true, ht]
    rw [he]
    refine ⟨⟨h2, fun h5 => ?_, hpres⟩, Or.inr ⟨rfl, rfl, rfl, rfl, rfl, rfl⟩⟩
    simp only [clipToEnd, lt_real, decide_eq_true_eq, if_true] at h5 ⊢
    split_ifs with h6
    · exact ⟨h5, le_refl _⟩
    · push Not at h6; exact ⟨h4, by linarith⟩
  · have hk' : a.1 = false := by simpa using hk
    obtain ⟨h3, h4⟩ := hv.reject h1 h.ctrl (y0 := s.y) (y1 := r.1) (err := r.2.2.1) hk'
    rw [← ha] at h3 h4
    have ht : jmin a.2.1 c.t1 = s.tprev := by rw [jmin_real, h3, min_eq_left h.le]
    have he : coreStep ctol c f g s = { s with tprev := s.tprev, tnext := clipToEnd ctol s.tprev a.2.2.1 c.t1 false, ctrl := a.2.2.2, num_steps := s.num_steps + 1, kept := false } := by
      simp only [coreStep, ← hrr, ← ha, hk', Bool.false_eq_true, if_false, ht]
    rw [he]
    refine ⟨⟨h.le, fun h5 => ?_, hpres⟩, Or.inl ⟨rfl, rfl, rfl, rfl, rfl⟩⟩
    simp only [clipToEnd, lt_real, decide_eq_true_eq, Bool.false_eq_true, if_false, Nat.cast_one,
      Nat.cast_ofNat] at h5 ⊢
    split_ifs with h6
    · constructor <;> linarith
    · push Not at h6; exact ⟨h4, by linarith⟩

/-- The relation between a kept state and the next: time increases and the solver made the step. -/
def StepOf (c : Call ℝ Y σ γ) (f : ℝ → Y → Y) (p q : ℝ × Y) : Prop :=
  p.1 < q.1 ∧ ∃ st, q.2 = (c.solver.step f p.1 q.1 p.2 st).1

/-- The event function has the same sign at both states. -/
def SameSign (h : ℝ → Y → ℝ) (p q : ℝ × Y) : Prop := sgn (h p.1 p.2) = sgn (h q.1 q.2)

theorem trace_inv (hc : 0 ≤ ctol) (hv : c.stepsize_controller.Valid c.dt0 P) (h01 : c.t0 < c.t1)
    (hi : c.stepsize_controller.init f c.t0 c.t1 c.y0 c.dt0 = .ok first) (k : ℕ)
    (hrun : ∀ j < k, running c.t1 (coreAt ctol c f g first j) = true) :
    CoreOk c P (coreAt ctol c f g first k) ∧
    (∃ B, keptRev (c.t0, c.y0) (coreAt ctol c f g first) k
      = ((coreAt ctol c f g first k).tprev, (coreAt ctol c f g first k).y) :: B) ∧
    (keptRev (c.t0, c.y0) (coreAt ctol c f g first) k).IsChain (fun q p => StepOf c f p q) ∧
    (g = none → (coreAt ctol c f g first k).event = false) ∧
    (∀ h, g = some h →
      (coreAt ctol c f g first k).event_value
        = h (coreAt ctol c f g first k).tprev (coreAt ctol c f g first k).y ∧
      ((coreAt ctol c f g first k).event = false →
        (keptRev (c.t0, c.y0) (coreAt ctol c f g first) k).IsChain (fun q p => SameSign h p q)) ∧
      ((coreAt ctol c f g first k).event = true → ∃ q p B,
        keptRev (c.t0, c.y0) (coreAt ctol c f g first) k = q :: p :: B ∧ ¬ SameSign h p q ∧
        (p :: B).IsChain (fun q p => SameSign h p q))) := by
  induction k with
  | zero =>
    refine ⟨coreInit_ok hv h01 hi, ⟨[], rfl⟩, by simp [keptRev], fun _ => rfl, ?_⟩
    rintro h rfl
    refine ⟨rfl, fun _ => by simp [keptRev], fun h => ?_⟩
    simp [coreAt, coreInit] at h
  | succ k ih =>
    obtain ⟨h1, ⟨B, h2⟩, h3, h4, h5⟩ := ih fun j hj => hrun j (by omega)
    have hk := hrun k (by omega)
    simp only [running, lt_real, Bool.and_eq_true, decide_eq_true_eq, Bool.not_eq_true'] at hk
    obtain ⟨hok, hcase⟩ := coreStep_ok (f := f) (g := g) hc hv h1 hk.1
    obtain ⟨hn1, hn2⟩ := h1.next hk.1
    rw [← coreAt_succ] at hok hcase
    refine ⟨hok, ?_⟩
    rcases hcase with ⟨e1, e2, e3, e4, e5⟩ | ⟨e1, e2, e3, e4, e5, e6⟩
    · simp only [keptRev, e1, Bool.false_eq_true, if_false, e2, e3, e4, e5]
      exact ⟨⟨B, h2⟩, h3, h4, h5⟩
    · simp only [keptRev, e1, if_true]
      refine ⟨⟨_, rfl⟩, ?_, ?_, ?_⟩
      · rw [h2] at h3 ⊢
        rw [List.isChain_cons_cons]
        refine ⟨⟨?_, (coreAt ctol c f g first k).solver, ?_⟩, h3⟩
        · change _ < (coreAt ctol c f g first (k + 1)).tprev
          rw [e2]; exact hn1
        · simp only [e2]; exact e3
      · rintro rfl; rw [e6]; rfl
      · rintro h rfl
        obtain ⟨h6, h7, -⟩ := h5 h rfl
        have h7 := h7 hk.2
        have e5' : (coreAt ctol c f (some h) first (k + 1)).event_value
            = h (coreAt ctol c f (some h) first (k + 1)).tprev
              (coreAt ctol c f (some h) first (k + 1)).y := by rw [e5, e2, e3]; rfl
        rw [e5', h6] at e6
        refine ⟨e5', fun he => ?_, fun he => ?_⟩
        · rw [h2] at h7 ⊢
          rw [List.isChain_cons_cons]
          refine ⟨?_, h7⟩
          rw [he] at e6
          have e7 : decide _ = false := e6.symm
          rw [decide_eq_false_iff_not, not_not] at e7
          exact e7.symm
        · rw [h2] at h7 ⊢
          refine ⟨_, _, _, rfl, ?_, h7⟩
          rw [he] at e6
          have e7 : decide _ = true := e6.symm
          rw [decide_eq_true_eq] at e7
          exact fun h => e7 h.symm

end real
end Adx
