import Verif.Lemmas.Cowell
import Verif.Model.RungeKutta

/-! # Lemmas for C74: maps between two calls of `diffeqsolve` -/

set_option linter.unusedSectionVars false

namespace Adx

theorem whileLoop_hom {σ τ : Type} (m : σ → τ) {c1 : σ → Bool} {c2 : τ → Bool} {b1 : σ → σ} {b2 : τ → τ}
    (hc : ∀ s, c2 (m s) = c1 s) (hb : ∀ s, b2 (m s) = m (b1 s)) (s : σ) :
    whileLoop c2 b2 (m s) = (whileLoop c1 b1 s).map m := by
  have hit : ∀ k s, b2^[k] (m s) = m (b1^[k] s) := by
    intro k
    induction k with
    | zero => intro s; rfl
    | succ k ih => intro s; rw [Function.iterate_succ_apply, Function.iterate_succ_apply, hb, ih]
  cases h : whileLoop c1 b1 s with
  | none =>
    rw [whileLoop_eq_none_iff] at h
    rw [Option.map_none, whileLoop_eq_none_iff]
    intro k; rw [hit, hc]; exact h k
  | some s' =>
    obtain ⟨k, e, h2, h1⟩ := ((whileLoop_eq_some_iff _ _ _ _).1 h).exists_iterate
    rw [whileLoop_of_iterate c2 b2 k, hit, e]; · rfl
    · intro j hj; rw [hit, hc]; exact h1 j hj
    · rw [hit, hc, ← e]; exact h2

variable {α : Type} [Add α] [Sub α] [Neg α] [Mul α] [Div α] [Pow α ℕ] [NatCast α] [JFun α]
variable {Y Y' σ σ' γ γ' : Type}

/-- `f'` is what `f` becomes under `φ`. -/
def FieldHom (φ : Y → Y') (f : α → Y → Y) (f' : α → Y' → Y') : Prop := ∀ t y, f' t (φ y) = φ (f t y)

/-- The solver `S'` does to `φ y` what `S` does to `y`. -/
structure SolverHom (φ : Y → Y') (ψ : σ → σ') (S : Solver α Y σ) (S' : Solver α Y' σ') : Prop where
  /-- start -/
  init : ∀ f f' t y, FieldHom φ f f' → S'.init f' t (φ y) = ψ (S.init f t y)
  /-- step -/
  step : ∀ f f' t0 t1 y k, FieldHom φ f f' →
    S'.step f' t0 t1 (φ y) (ψ k) = (φ (S.step f t0 t1 y k).1, fun t => φ ((S.step f t0 t1 y k).2.1 t),
      φ (S.step f t0 t1 y k).2.2.1, ψ (S.step f t0 t1 y k).2.2.2)

/-- The controller `K'` decides about `φ y` what `K` decides about `y`. -/
structure ControllerHom (φ : Y → Y') (θ : γ → γ') (K : Controller α Y γ) (K' : Controller α Y' γ') : Prop where
  /-- start -/
  init : ∀ f f' t0 t1 y dt0, FieldHom φ f f' →
    K'.init f' t0 t1 (φ y) dt0 = (K.init f t0 t1 y dt0).map fun p => (p.1, θ p.2)
  /-- decision -/
  adapt : ∀ t0 t1 y0 y1 e s, K'.adapt t0 t1 (φ y0) (φ y1) (φ e) (θ s)
    = ((K.adapt t0 t1 y0 y1 e s).1, (K.adapt t0 t1 y0 y1 e s).2.1, (K.adapt t0 t1 y0 y1 e s).2.2.1,
      θ (K.adapt t0 t1 y0 y1 e s).2.2.2)

/-- `c'` is what the call `c` becomes under `φ`. -/
structure CallHom (φ : Y → Y') (ψ : σ → σ') (θ : γ → γ') (c : Call α Y σ γ) (c' : Call α Y' σ' γ') : Prop where
  /-- vector field -/
  terms : ∀ t y, c'.terms t (φ y) c'.args = (c.terms t y c.args).map φ
  /-- solver -/
  solver : SolverHom φ ψ c.solver c'.solver
  /-- controller -/
  ctrl : ControllerHom φ θ c.stepsize_controller c'.stepsize_controller
  /-- initial time -/
  t0 : c'.t0 = c.t0
  /-- final time -/
  t1 : c'.t1 = c.t1
  /-- first step -/
  dt0 : c'.dt0 = c.dt0
  /-- initial state -/
  y0 : c'.y0 = φ c.y0
  /-- limit -/
  max_steps : c'.max_steps = c.max_steps
  /-- output -/
  saveat : c'.saveat = c.saveat
  /-- event -/
  event : (c.event = none ∧ c'.event = none) ∨ ∃ e e', c.event = some e ∧ c'.event = some e' ∧
    ∀ t y, e' t (φ y) c'.args = e t y c.args

/-- The image of the loop state. -/
def Core.map (φ : Y → Y') (ψ : σ → σ') (θ : γ → γ') (s : Core α Y σ γ) : Core α Y' σ' γ' :=
  { tprev := s.tprev, tnext := s.tnext, y := φ s.y, solver := ψ s.solver, ctrl := θ s.ctrl, num_steps := s.num_steps,
    event_value := s.event_value, event := s.event, kept := s.kept, interp := fun t => φ (s.interp t) }

/-- The image of what has been saved. -/
def Save.map (φ : Y → Y') (w : Save α Y) : Save α Y' := (w.1.map fun p => (p.1, φ p.2), w.2)

/-- The image of a solution. -/
def Sol.map (φ : Y → Y') (s : Sol α Y) : Sol α Y' := { s with saved := s.saved.map fun p => (p.1, φ p.2) }

/-- The event functions agree. -/
def EventHom (φ : Y → Y') (g : Option (α → Y → α)) (g' : Option (α → Y' → α)) : Prop :=
  g' = none ∧ g = none ∨ ∃ h h', g = some h ∧ g' = some h' ∧ ∀ t y, h' t (φ y) = h t y

section
variable {φ : Y → Y'} {ψ : σ → σ'} {θ : γ → γ'} {c : Call α Y σ γ} {c' : Call α Y' σ' γ'} (H : CallHom φ ψ θ c c')

theorem EventHom.eval {g : Option (α → Y → α)} {g' : Option (α → Y' → α)} (h : EventHom φ g g') (old t : α) (y : Y) :
    evalEvent g' old t (φ y) = evalEvent g old t y := by
  rcases h with ⟨rfl, rfl⟩ | ⟨e, e', rfl, rfl, h⟩
  · rfl
  · exact h t y

theorem EventHom.isSome {g : Option (α → Y → α)} {g' : Option (α → Y' → α)} (h : EventHom φ g g') : g'.isSome = g.isSome := by
  rcases h with ⟨rfl, rfl⟩ | ⟨e, e', rfl, rfl, h⟩ <;> rfl

include H

theorem CallHom.coreStep {f : α → Y → Y} {f' : α → Y' → Y'} {g : Option (α → Y → α)} {g' : Option (α → Y' → α)}
    (hf : FieldHom φ f f') (hg : EventHom φ g g') (ctol : α) (s : Core α Y σ γ) :
    Adx.coreStep ctol c' f' g' (s.map φ ψ θ) = (Adx.coreStep ctol c f g s).map φ ψ θ := by
  have e1 := H.solver.step f f' s.tprev s.tnext s.y s.solver hf
  simp only [Adx.coreStep, Core.map, e1, H.ctrl.adapt, H.t1, hg.eval, hg.isSome]
  split_ifs <;> rfl

theorem saveStep_map (sa : SaveAt α) (s : Core α Y σ γ) (w : Save α Y) :
    saveStep sa (s.map φ ψ θ) (Save.map φ w) = Save.map φ (saveStep sa s w) := by
  by_cases hk : s.kept = true <;> by_cases hs : sa.steps = true <;>
    simp [saveStep, Core.map, Save.map, hk, hs, List.map_append, Function.comp_def]

theorem CallHom.diffeqLoop {f : α → Y → Y} {f' : α → Y' → Y'} {g : Option (α → Y → α)} {g' : Option (α → Y' → α)}
    (hf : FieldHom φ f f') (hg : EventHom φ g g') (ctol : α) (first : α × γ) :
    Adx.diffeqLoop ctol c' f' g' (first.1, θ first.2) = (Adx.diffeqLoop ctol c f g first).map (Except.map (Sol.map φ)) := by
  have hi : coreInit c' f' g' (first.1, θ first.2) = (coreInit c f g first).map φ ψ θ := by
    simp only [coreInit, Core.map, H.t0, H.t1, H.y0, H.solver.init f f' _ _ hf, hg.eval]
  have := whileLoop_hom (fun s : Core α Y σ γ × Save α Y => (s.1.map φ ψ θ, Save.map φ s.2))
    (c1 := fun s => loopCond c.t1 c.max_steps s.1) (c2 := fun s => loopCond c'.t1 c'.max_steps s.1)
    (b1 := fun s => let s' := Adx.coreStep ctol c f g s.1; (s', saveStep c.saveat s' s.2))
    (b2 := fun s => let s' := Adx.coreStep ctol c' f' g' s.1; (s', saveStep c'.saveat s' s.2))
    (fun s => by rw [H.t1, H.max_steps]; rfl)
    (fun s => by
      dsimp only
      rw [H.coreStep hf hg, H.saveat, saveStep_map H])
    (coreInit c f g first, (if c.saveat.t0 then [(c.t0, c.y0)] else [], c.saveat.ts))
  have hw : Save.map φ (if c.saveat.t0 then [(c.t0, c.y0)] else [], c.saveat.ts)
      = (if c'.saveat.t0 then [(c'.t0, c'.y0)] else [], c'.saveat.ts) := by
    rw [H.saveat, H.t0, H.y0]; simp only [Save.map]; split_ifs <;> rfl
  dsimp only at this
  rw [← hi, hw] at this
  unfold Adx.diffeqLoop
  rw [this, Option.map_map, Option.map_map]
  congr 1
  funext s
  simp only [Function.comp_def]
  have hr : running c'.t1 (s.1.map φ ψ θ) = running c.t1 s.1 := by rw [H.t1]; rfl
  rw [hr, H.saveat]
  cases hrun : running c.t1 s.1 <;> cases ht1 : c.saveat.t1 <;> simp [Except.map, Sol.map, Save.map, Core.map]

theorem CallHom.trace : (∀ e, traceTerms c = .error e → traceTerms c' = .error e) ∧
    ∀ f, traceTerms c = .ok f → ∃ f', traceTerms c' = .ok f' ∧ FieldHom φ f f' := by
  have e0 : c'.terms c'.t0 c'.y0 c'.args = (c.terms c.t0 c.y0 c.args).map φ := by rw [H.t0, H.y0, H.terms]
  unfold traceTerms
  cases h : c.terms c.t0 c.y0 c.args with
  | error e =>
    rw [h] at e0
    refine ⟨fun e' he' => ?_, fun f hf => ?_⟩
    · simp only [e0, Except.map, bind, Except.bind] at he' ⊢; cases he'; rfl
    · simp [bind, Except.bind] at hf
  | ok d =>
    rw [h] at e0
    refine ⟨fun e' he' => ?_, fun f hf => ?_⟩
    · simp [bind, Except.bind, pure, Except.pure] at he'
    · simp only [bind, Except.bind, pure, Except.pure, Except.ok.injEq] at hf
      subst hf
      refine ⟨fun t y => match c'.terms t y c'.args with
        | .ok v => v
        | .error _ => φ d, by simp only [e0, Except.map, bind, Except.bind, pure, Except.pure]; rfl, fun t y => ?_⟩
      dsimp only
      rw [H.terms]
      cases c.terms t y c.args <;> rfl

theorem CallHom.traceEvent : (∀ e, Adx.traceEvent c = .error e → Adx.traceEvent c' = .error e) ∧
    ∀ g, Adx.traceEvent c = .ok g → ∃ g', Adx.traceEvent c' = .ok g' ∧ EventHom φ g g' := by
  unfold Adx.traceEvent
  rcases H.event with ⟨h1, h2⟩ | ⟨e, e', h1, h2, h3⟩
  · rw [h1, h2]
    refine ⟨fun e he => by simp at he, fun g hg => ⟨none, rfl, Or.inl ⟨rfl, ?_⟩⟩⟩
    simpa using hg.symm
  · rw [h1, h2]
    dsimp only
    have e0 : e' c'.t0 c'.y0 c'.args = e c.t0 c.y0 c.args := by rw [H.t0, H.y0, h3]
    rw [e0]
    cases h : e c.t0 c.y0 c.args with
    | error er => exact ⟨fun e he => by cases he; rfl, fun g hg => by simp [bind, Except.bind] at hg⟩
    | ok d =>
      refine ⟨fun e he => by simp [bind, Except.bind, pure, Except.pure] at he, fun g hg => ?_⟩
      simp only [bind, Except.bind, pure, Except.pure, Except.ok.injEq] at hg
      subst hg
      refine ⟨_, rfl, Or.inr ⟨_, _, rfl, rfl, fun t y => ?_⟩⟩
      rw [h3]

theorem CallHom.diffeqsolve (ctol : α) :
    Adx.diffeqsolve ctol c' = (Adx.diffeqsolve ctol c).map (Except.map (Sol.map φ)) := by
  unfold Adx.diffeqsolve
  rw [H.saveat, H.max_steps, H.t0, H.t1]
  split_ifs
  · rfl
  · rfl
  · cases hf : traceTerms c with
    | error e => rw [H.trace.1 e hf]; rfl
    | ok f =>
      obtain ⟨f', hf', hff⟩ := H.trace.2 f hf
      rw [hf']
      dsimp only
      cases hg : Adx.traceEvent c with
      | error e => rw [H.traceEvent.1 e hg]; rfl
      | ok g =>
        obtain ⟨g', hg', hgg⟩ := H.traceEvent.2 g hg
        rw [hg']
        dsimp only
        rw [H.y0, H.dt0, H.ctrl.init f f' _ _ _ _ hff]
        cases hi : c.stepsize_controller.init f c.t0 c.t1 c.y0 c.dt0 with
        | error e => rfl
        | ok first => exact H.diffeqLoop hff hgg ctol first

end

/-! ## Runge–Kutta solvers -/

section
variable [Add Y] [SMul α Y] [Add Y'] [SMul α Y'] {φ : Y → Y'} (hadd : ∀ a b, φ (a + b) = φ a + φ b)
  (hsmul : ∀ (k : α) a, φ (k • a) = k • φ a)
include hadd hsmul

theorem rkCombine_hom (h : α) (row : List α) : ∀ (ks : List Y) (y : Y),
    rkCombine h (φ y) row (ks.map φ) = φ (rkCombine h y row ks) := by
  induction row with
  | nil => intro ks y; rfl
  | cons a row ih =>
    intro ks y
    cases ks with
    | nil => rfl
    | cons k ks =>
      have := ih ks (y + (h * a) • k)
      rw [hadd, hsmul] at this
      exact this

theorem rkStages_hom {f : α → Y → Y} {f' : α → Y' → Y'} (hf : FieldHom φ f f') (t h : α) (y : Y) :
    ∀ (rows : List (α × List α)) (ks : List Y) (yl kl : Y),
    rkStages f' t h (φ y) rows (ks.map φ) (φ yl) (φ kl)
      = (φ (rkStages f t h y rows ks yl kl).1, φ (rkStages f t h y rows ks yl kl).2) := by
  intro rows
  induction rows with
  | nil => intro ks yl kl; rfl
  | cons p rest ih =>
    intro ks yl kl
    simp only [rkStages]
    rw [← ih, List.map_append, List.map_singleton, rkCombine_hom hadd hsmul, ← hf]

theorem rkSolver_hom (tb : Tableau α) {interp : α → α → Y → Y → α → Y} {interp' : α → α → Y' → Y' → α → Y'}
    {err : α → α → Y → Y → Y} {err' : α → α → Y' → Y' → Y'}
    (hi : ∀ t0 t1 a b t, interp' t0 t1 (φ a) (φ b) t = φ (interp t0 t1 a b t))
    (he : ∀ t0 t1 a b, err' t0 t1 (φ a) (φ b) = φ (err t0 t1 a b)) :
    SolverHom φ φ (rkSolver tb interp err) (rkSolver tb interp' err') where
  init f f' t y hf := hf t y
  step f f' t0 t1 y k hf := by
    have e := rkStages_hom hadd hsmul hf t0 (t1 - t0) y tb.rows [k] y k
    rw [List.map_singleton] at e
    simp only [rkSolver, e, he]
    refine Prod.ext rfl (Prod.ext ?_ rfl)
    funext t; exact hi _ _ _ _ _

end

theorem constant_hom (φ : Y → Y') : ControllerHom φ id (constantStepSize : Controller α Y α) constantStepSize where
  init f f' t0 t1 y dt0 _ := by
    cases dt0 <;> rfl
  adapt t0 t1 y0 y1 e s := rfl

/-! ## The saved steps of a Runge–Kutta run -/

/-- One step of the method from `y`, all stages evaluated afresh. -/
def rkStep [Add Y] [SMul α Y] (tb : Tableau α) (F : Y → Y) (h : α) (y : Y) : Y :=
  (rkStages (fun _ => F) h h y tb.rows [F y] y (F y)).1

theorem rkStages_autonomous [Add Y] [SMul α Y] (F : Y → Y) (t t' h : α) (y : Y) :
    ∀ (rows : List (α × List α)) (ks : List Y) (yl kl : Y),
    rkStages (fun _ => F) t h y rows ks yl kl = rkStages (fun _ => F) t' h y rows ks yl kl := by
  intro rows
  induction rows with
  | nil => intro ks yl kl; rfl
  | cons p rest ih => intro ks yl kl; simp only [rkStages]; exact ih _ _ _

theorem rkStages_last [Add Y] [SMul α Y] (F : Y → Y) (t h : α) (y : Y) :
    ∀ (rows : List (α × List α)) (ks : List Y) (yl : Y),
    (rkStages (fun _ => F) t h y rows ks yl (F yl)).2 = F (rkStages (fun _ => F) t h y rows ks yl (F yl)).1 := by
  intro rows
  induction rows with
  | nil => intro ks yl; rfl
  | cons p rest ih => intro ks yl; simp only [rkStages]; exact ih _ _

end Adx
