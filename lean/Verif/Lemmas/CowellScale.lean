import Verif.Lemmas.CowellHom
import Verif.Num

/-! # Lemmas for C57: calls of `diffeqsolve` in other units

The time is multiplied by `T > 0`, the states go through `φ`, the derivatives through `δ`, event values are multiplied by
`κ > 0`, and the clipping tolerance of diffrax is multiplied by `T` too. -/

set_option linter.unusedSectionVars false

namespace Adx
variable {Y Y' σ σ' γ γ' : Type} {T κ : ℝ}

theorem lt_scale (hT : 0 < T) (a b : ℝ) : JFun.lt (T * a) (T * b) = JFun.lt a b := by
  rw [lt_real, lt_real]; exact decide_eq_decide.2 (mul_lt_mul_iff_right₀ hT)

theorem jmin_scale (hT : 0 < T) (a b : ℝ) : jmin (T * a) (T * b) = T * jmin a b := by
  unfold jmin; rw [lt_scale hT]; split_ifs <;> rfl

theorem sgn_scale (hκ : 0 < κ) (a : ℝ) : sgn (κ * a) = sgn a := by
  have h := lt_scale hκ 0 a
  have h' := lt_scale hκ a 0
  rw [mul_zero] at h h'
  simp only [sgn, Nat.cast_zero, h, h']

theorem clip_scale (hT : 0 < T) (c a b t : ℝ) (k : Bool) :
    clipToEnd (T * c) (T * a) (T * b) (T * t) k = T * clipToEnd c a b t k := by
  unfold clipToEnd
  rw [← mul_sub, lt_scale hT]
  split_ifs
  · rfl
  · ring
  · rfl

/-- `f'` is what `f` becomes in the new units. -/
def FieldScale (T : ℝ) (φ δ : Y → Y') (f : ℝ → Y → Y) (f' : ℝ → Y' → Y') : Prop := ∀ t y, f' (T * t) (φ y) = δ (f t y)

/-- The solver `S'` does in the new units what `S` does in the old ones. -/
structure SolverScale (T : ℝ) (φ δ : Y → Y') (ψ : σ → σ') (S : Solver ℝ Y σ) (S' : Solver ℝ Y' σ') : Prop where
  /-- start -/
  init : ∀ f f' t y, FieldScale T φ δ f f' → S'.init f' (T * t) (φ y) = ψ (S.init f t y)
  /-- step -/
  step : ∀ f f' t0 t1 y k, FieldScale T φ δ f f' →
    S'.step f' (T * t0) (T * t1) (φ y) (ψ k) = (φ (S.step f t0 t1 y k).1, fun t => φ ((S.step f t0 t1 y k).2.1 (t / T)),
      φ (S.step f t0 t1 y k).2.2.1, ψ (S.step f t0 t1 y k).2.2.2)

/-- The controller `K'` decides in the new units what `K` decides in the old ones. -/
structure ControllerScale (T : ℝ) (φ δ : Y → Y') (θ : γ → γ') (K : Controller ℝ Y γ) (K' : Controller ℝ Y' γ') : Prop where
  /-- start -/
  init : ∀ f f' t0 t1 y dt0, FieldScale T φ δ f f' →
    K'.init f' (T * t0) (T * t1) (φ y) (dt0.map (T * ·)) = (K.init f t0 t1 y dt0).map fun p => (T * p.1, θ p.2)
  /-- decision -/
  adapt : ∀ t0 t1 y0 y1 e s, K'.adapt (T * t0) (T * t1) (φ y0) (φ y1) (φ e) (θ s)
    = ((K.adapt t0 t1 y0 y1 e s).1, T * (K.adapt t0 t1 y0 y1 e s).2.1, T * (K.adapt t0 t1 y0 y1 e s).2.2.1,
      θ (K.adapt t0 t1 y0 y1 e s).2.2.2)

/-- What to save, in the new units. -/
def SaveAt.scale (T : ℝ) (s : SaveAt ℝ) : SaveAt ℝ := { s with ts := s.ts.map (T * ·) }

/-- `c'` is the call `c` in the new units. -/
structure CallScale (T κ : ℝ) (φ δ : Y → Y') (ψ : σ → σ') (θ : γ → γ') (c : Call ℝ Y σ γ) (c' : Call ℝ Y' σ' γ') : Prop where
  /-- the unit of time -/
  pos : 0 < T
  /-- the unit of the event function -/
  pos' : 0 < κ
  /-- vector field -/
  terms : ∀ t y, c'.terms (T * t) (φ y) c'.args = (c.terms t y c.args).map δ
  /-- solver -/
  solver : SolverScale T φ δ ψ c.solver c'.solver
  /-- controller -/
  ctrl : ControllerScale T φ δ θ c.stepsize_controller c'.stepsize_controller
  /-- initial time -/
  t0 : c'.t0 = T * c.t0
  /-- final time -/
  t1 : c'.t1 = T * c.t1
  /-- first step -/
  dt0 : c'.dt0 = c.dt0.map (T * ·)
  /-- initial state -/
  y0 : c'.y0 = φ c.y0
  /-- limit -/
  max_steps : c'.max_steps = c.max_steps
  /-- output -/
  saveat : c'.saveat = c.saveat.scale T
  /-- event -/
  event : (c.event = none ∧ c'.event = none) ∨ ∃ e e', c.event = some e ∧ c'.event = some e' ∧
    ∀ t y, e' (T * t) (φ y) c'.args = (e t y c.args).map (κ * ·)

/-- The loop state in the new units. -/
noncomputable def Core.scale (T κ : ℝ) (φ : Y → Y') (ψ : σ → σ') (θ : γ → γ') (s : Core ℝ Y σ γ) : Core ℝ Y' σ' γ' :=
  { tprev := T * s.tprev, tnext := T * s.tnext, y := φ s.y, solver := ψ s.solver, ctrl := θ s.ctrl, num_steps := s.num_steps,
    event_value := κ * s.event_value, event := s.event, kept := s.kept, interp := fun t => φ (s.interp (t / T)) }

/-- What has been saved, in the new units. -/
def Save.scale (T : ℝ) (φ : Y → Y') (w : Save ℝ Y) : Save ℝ Y' := (w.1.map fun p => (T * p.1, φ p.2), w.2.map (T * ·))

/-- A solution in the new units. -/
def Sol.scale (T : ℝ) (φ : Y → Y') (s : Sol ℝ Y) : Sol ℝ Y' := { s with saved := s.saved.map fun p => (T * p.1, φ p.2) }

/-- The event functions agree up to the unit. -/
def EventScale (T κ : ℝ) (φ : Y → Y') (g : Option (ℝ → Y → ℝ)) (g' : Option (ℝ → Y' → ℝ)) : Prop :=
  g' = none ∧ g = none ∨ ∃ h h', g = some h ∧ g' = some h' ∧ ∀ t y, h' (T * t) (φ y) = κ * h t y

section
variable {φ δ : Y → Y'} {ψ : σ → σ'} {θ : γ → γ'} {c : Call ℝ Y σ γ} {c' : Call ℝ Y' σ' γ'} (H : CallScale T κ φ δ ψ θ c c')

theorem EventScale.eval {g : Option (ℝ → Y → ℝ)} {g' : Option (ℝ → Y' → ℝ)} (h : EventScale T κ φ g g') (old t : ℝ) (y : Y) :
    evalEvent g' (κ * old) (T * t) (φ y) = κ * evalEvent g old t y := by
  rcases h with ⟨rfl, rfl⟩ | ⟨e, e', rfl, rfl, h⟩
  · rfl
  · exact h t y

theorem EventScale.isSome {g : Option (ℝ → Y → ℝ)} {g' : Option (ℝ → Y' → ℝ)} (h : EventScale T κ φ g g') :
    g'.isSome = g.isSome := by
  rcases h with ⟨rfl, rfl⟩ | ⟨e, e', rfl, rfl, h⟩ <;> rfl

include H

theorem CallScale.coreStep {f : ℝ → Y → Y} {f' : ℝ → Y' → Y'} {g : Option (ℝ → Y → ℝ)} {g' : Option (ℝ → Y' → ℝ)}
    (hf : FieldScale T φ δ f f') (hg : EventScale T κ φ g g') (ctol : ℝ) (s : Core ℝ Y σ γ) :
    Adx.coreStep (T * ctol) c' f' g' (s.scale T κ φ ψ θ) = (Adx.coreStep ctol c f g s).scale T κ φ ψ θ := by
  have e1 := H.solver.step f f' s.tprev s.tnext s.y s.solver hf
  simp only [Adx.coreStep, Core.scale, e1, H.ctrl.adapt, H.t1, hg.eval, hg.isSome, jmin_scale H.pos, clip_scale H.pos,
    sgn_scale H.pos']
  split_ifs <;> rfl

theorem saveStep_scale (sa : SaveAt ℝ) (s : Core ℝ Y σ γ) (w : Save ℝ Y) :
    saveStep (sa.scale T) (s.scale T κ φ ψ θ) (Save.scale T φ w) = Save.scale T φ (saveStep sa s w) := by
  have hT := H.pos
  have h1 : ∀ l : List ℝ, (l.map (T * ·)).takeWhile (fun t => !JFun.lt (T * s.tprev) t)
      = (l.takeWhile fun t => !JFun.lt s.tprev t).map (T * ·) := by
    intro l; rw [List.takeWhile_map]; congr 2; funext t; exact congrArg not (lt_scale hT _ _)
  have h2 : ∀ l : List ℝ, (l.map (T * ·)).dropWhile (fun t => !JFun.lt (T * s.tprev) t)
      = (l.dropWhile fun t => !JFun.lt s.tprev t).map (T * ·) := by
    intro l; rw [List.dropWhile_map]; congr 2; funext t; exact congrArg not (lt_scale hT _ _)
  by_cases hk : s.kept = true <;> by_cases hs : sa.steps = true <;>
    simp [-lt_real, saveStep, Core.scale, Save.scale, SaveAt.scale, hk, hs, List.map_append, Function.comp_def, h1, h2, hT.ne']

theorem CallScale.diffeqLoop {f : ℝ → Y → Y} {f' : ℝ → Y' → Y'} {g : Option (ℝ → Y → ℝ)} {g' : Option (ℝ → Y' → ℝ)}
    (hf : FieldScale T φ δ f f') (hg : EventScale T κ φ g g') (ctol : ℝ) (first : ℝ × γ) :
    Adx.diffeqLoop (T * ctol) c' f' g' (T * first.1, θ first.2)
      = (Adx.diffeqLoop ctol c f g first).map (Except.map (Sol.scale T φ)) := by
  have hi : coreInit c' f' g' (T * first.1, θ first.2) = (coreInit c f g first).scale T κ φ ψ θ := by
    have h0 := hg.eval 0 c.t0 c.y0
    rw [mul_zero] at h0
    simp only [coreInit, Core.scale, H.t0, H.t1, H.y0, H.solver.init f f' _ _ hf, Nat.cast_zero, h0, jmin_scale H.pos]
  have hrun : ∀ s : Core ℝ Y σ γ, running c'.t1 (s.scale T κ φ ψ θ) = running c.t1 s := by
    intro s; rw [H.t1]; simp only [running, Core.scale, lt_scale H.pos]
  have := whileLoop_hom (fun s : Core ℝ Y σ γ × Save ℝ Y => (s.1.scale T κ φ ψ θ, Save.scale T φ s.2))
    (c1 := fun s => loopCond c.t1 c.max_steps s.1) (c2 := fun s => loopCond c'.t1 c'.max_steps s.1)
    (b1 := fun s => let s' := Adx.coreStep ctol c f g s.1; (s', saveStep c.saveat s' s.2))
    (b2 := fun s => let s' := Adx.coreStep (T * ctol) c' f' g' s.1; (s', saveStep c'.saveat s' s.2))
    (fun s => by rw [H.max_steps]; unfold loopCond; dsimp only; rw [hrun]; rfl)
    (fun s => by
      dsimp only
      rw [H.coreStep hf hg, H.saveat, saveStep_scale H])
    (coreInit c f g first, (if c.saveat.t0 then [(c.t0, c.y0)] else [], c.saveat.ts))
  have hw : Save.scale T φ (if c.saveat.t0 then [(c.t0, c.y0)] else [], c.saveat.ts)
      = (if c'.saveat.t0 then [(c'.t0, c'.y0)] else [], c'.saveat.ts) := by
    rw [H.saveat, H.t0, H.y0]; cases h : c.saveat.t0 <;> simp [Save.scale, SaveAt.scale, h]
  dsimp only at this
  rw [← hi, hw] at this
  unfold Adx.diffeqLoop
  rw [this, Option.map_map, Option.map_map]
  congr 1
  funext s
  simp only [Function.comp_def]
  rw [hrun, H.saveat]
  cases hr : running c.t1 s.1 <;> cases ht1 : c.saveat.t1 <;>
    simp [Except.map, Sol.scale, Save.scale, Core.scale, SaveAt.scale, ht1]

theorem CallScale.trace : (∀ e, traceTerms c = .error e → traceTerms c' = .error e) ∧
    ∀ f, traceTerms c = .ok f → ∃ f', traceTerms c' = .ok f' ∧ FieldScale T φ δ f f' := by
  have e0 : c'.terms c'.t0 c'.y0 c'.args = (c.terms c.t0 c.y0 c.args).map δ := by rw [H.t0, H.y0, H.terms]
  unfold traceTerms
  cases h : c.terms c.t0 c.y0 c.args with
  | error e =>
    rw [h] at e0
    refine ⟨fun e' he' => ?_, fun f hf => ?_⟩
    · simp only [e0, Except.map, bind, Except.bind] at he' ⊢; cases he'; rfl
    · simp [bind, Except.bind] at hf
  | ok d =>
    rw [h] at e0
    refine ⟨fun e' he' => ?_, fun f hf => ?_⟩
    · simp [bind, Except.bind, pure, Except.pure] at he'
    · simp only [bind, Except.bind, pure, Except.pure, Except.ok.injEq] at hf
      subst hf
      refine ⟨fun t y => match c'.terms t y c'.args with
        | .ok v => v
        | .error _ => δ d, by simp only [e0, Except.map, bind, Except.bind, pure, Except.pure]; rfl, fun t y => ?_⟩
      dsimp only
      rw [H.terms]
      cases c.terms t y c.args <;> rfl

theorem CallScale.traceEvent : (∀ e, Adx.traceEvent c = .error e → Adx.traceEvent c' = .error e) ∧
    ∀ g, Adx.traceEvent c = .ok g → ∃ g', Adx.traceEvent c' = .ok g' ∧ EventScale T κ φ g g' := by
  unfold Adx.traceEvent
  rcases H.event with ⟨h1, h2⟩ | ⟨e, e', h1, h2, h3⟩
  · rw [h1, h2]
    refine ⟨fun e he => by simp at he, fun g hg => ⟨none, rfl, Or.inl ⟨rfl, ?_⟩⟩⟩
    simpa using hg.symm
  · rw [h1, h2]
    dsimp only
    have e0 : e' c'.t0 c'.y0 c'.args = (e c.t0 c.y0 c.args).map (κ * ·) := by rw [H.t0, H.y0, h3]
    rw [e0]
    cases h : e c.t0 c.y0 c.args with
    | error er => exact ⟨fun e he => by cases he; rfl, fun g hg => by simp [bind, Except.bind] at hg⟩
    | ok d =>
      refine ⟨fun e he => by simp [bind, Except.bind, pure, Except.pure] at he, fun g hg => ?_⟩
      simp only [bind, Except.bind, pure, Except.pure, Except.ok.injEq] at hg
      subst hg
      refine ⟨_, rfl, Or.inr ⟨_, _, rfl, rfl, fun t y => ?_⟩⟩
      rw [h3]
      cases e t y c.args <;> rfl

theorem tsOk_scale (t0 t1 : ℝ) (ts : List ℝ) : tsOk (T * t0) (T * t1) (ts.map (T * ·)) = tsOk t0 t1 ts := by
  have hT := H.pos
  unfold tsOk
  rw [← List.map_tail, List.zip_map, List.all_map, List.all_map]
  simp only [Function.comp_def, lt_scale hT, Prod.map]

/-- `diffeqsolve` commutes with a change of units that converts the clipping tolerance too. -/
theorem CallScale.diffeqsolve (ctol : ℝ) :
    Adx.diffeqsolve (T * ctol) c' = (Adx.diffeqsolve ctol c).map (Except.map (Sol.scale T φ)) := by
  unfold Adx.diffeqsolve
  have hts := tsOk_scale H c.t0 c.t1 c.saveat.ts
  rw [H.saveat, H.max_steps, H.t0, H.t1]
  simp only [SaveAt.scale, hts]
  split_ifs
  · rfl
  · rfl
  · cases hf : traceTerms c with
    | error e => rw [H.trace.1 e hf]; rfl
    | ok f =>
      obtain ⟨f', hf', hff⟩ := H.trace.2 f hf
      rw [hf']
      dsimp only
      cases hg : Adx.traceEvent c with
      | error e => rw [H.traceEvent.1 e hg]; rfl
      | ok g =>
        obtain ⟨g', hg', hgg⟩ := H.traceEvent.2 g hg
        rw [hg']
        dsimp only
        rw [H.y0, H.dt0, H.ctrl.init f f' _ _ _ _ hff]
        cases hi : c.stepsize_controller.init f c.t0 c.t1 c.y0 c.dt0 with
        | error e => rfl
        | ok first => exact H.diffeqLoop hff hgg ctol first

end

/-! ## Runge–Kutta solvers -/

section
variable [Add Y] [SMul ℝ Y] [Add Y'] [SMul ℝ Y'] {φ δ : Y → Y'} (hT : 0 < T) (hadd : ∀ a b, φ (a + b) = φ a + φ b)
  (hsmul : ∀ (k : ℝ) a, φ (k • a) = (T * k) • δ a)
include hadd hsmul

theorem rkCombine_scale (h : ℝ) (row : List ℝ) : ∀ (ks : List Y) (y : Y),
    rkCombine (T * h) (φ y) row (ks.map δ) = φ (rkCombine h y row ks) := by
  induction row with
  | nil => intro ks y; rfl
  | cons a row ih =>
    intro ks y
    cases ks with
    | nil => rfl
    | cons k ks =>
      have := ih ks (y + (h * a) • k)
      rw [hadd, hsmul, ← mul_assoc] at this
      exact this

theorem rkStages_scale {f : ℝ → Y → Y} {f' : ℝ → Y' → Y'} (hf : FieldScale T φ δ f f') (t h : ℝ) (y : Y) :
    ∀ (rows : List (ℝ × List ℝ)) (ks : List Y) (yl kl : Y),
    rkStages f' (T * t) (T * h) (φ y) rows (ks.map δ) (φ yl) (δ kl)
      = (φ (rkStages f t h y rows ks yl kl).1, δ (rkStages f t h y rows ks yl kl).2) := by
  intro rows
  induction rows with
  | nil => intro ks yl kl; rfl
  | cons p rest ih =>
    intro ks yl kl
    simp only [rkStages]
    rw [← ih, List.map_append, List.map_singleton, rkCombine_scale hadd hsmul, ← hf,
      show T * t + p.1 * (T * h) = T * (t + p.1 * h) by ring]

theorem rkSolver_scale (tb : Tableau ℝ) {interp : ℝ → ℝ → Y → Y → ℝ → Y} {interp' : ℝ → ℝ → Y' → Y' → ℝ → Y'}
    {err : ℝ → ℝ → Y → Y → Y} {err' : ℝ → ℝ → Y' → Y' → Y'}
    (hi : ∀ t0 t1 a b t, interp' (T * t0) (T * t1) (φ a) (φ b) (T * t) = φ (interp t0 t1 a b t))
    (he : ∀ t0 t1 a b, err' (T * t0) (T * t1) (φ a) (φ b) = φ (err t0 t1 a b)) (hT : T ≠ 0) :
    SolverScale T φ δ δ (rkSolver tb interp err) (rkSolver tb interp' err') where
  init f f' t y hf := hf t y
  step f f' t0 t1 y k hf := by
    have e := rkStages_scale hadd hsmul hf t0 (t1 - t0) y tb.rows [k] y k
    rw [List.map_singleton] at e
    simp only [rkSolver, ← mul_sub, e, he]
    refine Prod.ext rfl (Prod.ext ?_ rfl)
    funext t
    have := hi t0 t1 y (rkStages f t0 (t1 - t0) y tb.rows [k] y k).1 (t / T)
    rw [mul_div_cancel₀ _ hT] at this
    exact this

end

theorem constant_scale (φ δ : Y → Y') : ControllerScale T φ δ (T * ·) (constantStepSize : Controller ℝ Y ℝ) constantStepSize where
  init f f' t0 t1 y dt0 _ := by
    cases dt0 with
    | none => rfl
    | some h => simp only [constantStepSize, Option.map_some, Except.map, mul_add]
  adapt t0 t1 y0 y1 e s := by simp only [constantStepSize, mul_add]

end Adx
