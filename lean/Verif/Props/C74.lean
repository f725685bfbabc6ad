import Verif.Lemmas.CowellHom
import Verif.Props.C27
import Verif.Props.C42
import Verif.Props.C45

/-! # C74: symmetries of the Cowell propagation with a Runge–Kutta solver

Exact arithmetic; the solver is `rkSolver` with any tableau. The interpolation and the error estimate are functions of the
ends of the step; in diffrax they are linear in the stages, so they commute with linear maps that commute with the force. -/

namespace Adx
open V3 Spec

/-- A linear map of vectors, applied to position and velocity. -/
def onState (A : V3 ℝ → V3 ℝ) (y : V3 ℝ × V3 ℝ) : V3 ℝ × V3 ℝ := (A y.1, A y.2)

section
variable {acc : ℝ → State ℝ → Args ℝ → Except PyErr (V3 ℝ)} {f : V3 ℝ → V3 ℝ} {A : V3 ℝ → V3 ℝ}
  {o : OrbDynx ℝ (V3 ℝ × V3 ℝ)} {tb : Tableau ℝ} {interp : ℝ → ℝ → V3 ℝ × V3 ℝ → V3 ℝ × V3 ℝ → ℝ → V3 ℝ × V3 ℝ}
  {err : ℝ → ℝ → V3 ℝ × V3 ℝ → V3 ℝ × V3 ℝ → V3 ℝ × V3 ℝ}

/-- The setting: a force `f` commuting with the linear map `A`, an event that does not change under `A`, an interpolation and
an error estimate that commute with `A`. -/
structure Symmetric (acc : ℝ → State ℝ → Args ℝ → Except PyErr (V3 ℝ)) (f A : V3 ℝ → V3 ℝ)
    (o : OrbDynx ℝ (V3 ℝ × V3 ℝ)) (interp : ℝ → ℝ → V3 ℝ × V3 ℝ → V3 ℝ × V3 ℝ → ℝ → V3 ℝ × V3 ℝ)
    (err : ℝ → ℝ → V3 ℝ × V3 ℝ → V3 ℝ × V3 ℝ → V3 ℝ × V3 ℝ) : Prop where
  /-- the force -/
  field : IsField acc o.args f
  /-- it is the one propagated -/
  terms : o.terms = secondOrder acc
  /-- linear -/
  add : ∀ a b, A (a + b) = A a + A b
  /-- linear -/
  smul : ∀ (k : ℝ) a, A (k • a) = k • A a
  /-- commutes -/
  comm : ∀ p, f (A p) = A (f p)
  /-- event -/
  event : ∀ e, o.event = some e → ∀ t y, e t (onState A y) o.args = e t y o.args
  /-- interpolation -/
  interp : ∀ t0 t1 a b t, interp t0 t1 (onState A a) (onState A b) t = onState A (interp t0 t1 a b t)
  /-- error estimate -/
  err : ∀ t0 t1 a b, err t0 t1 (onState A a) (onState A b) = onState A (err t0 t1 a b)

theorem Symmetric.callHom {γ : Type} (h : Symmetric acc f A o interp err) {ctrl : Controller ℝ (V3 ℝ × V3 ℝ) γ}
    (hc : ControllerHom (onState A) id ctrl ctrl) (sa : SaveAt ℝ) (dt0 : Option ℝ) (ms : Option ℕ) (t1 : ℝ)
    (x0 : V3 ℝ × V3 ℝ) :
    CallHom (onState A) (onState A) id (cowellCall o x0 t1 sa dt0 ms (rkSolver tb interp err) ctrl)
      (cowellCall o (onState A x0) t1 sa dt0 ms (rkSolver tb interp err) ctrl) where
  terms t y := by
    show o.terms t (onState A y) o.args = (o.terms t y o.args).map (onState A)
    have e1 := h.field t [y.2.x, y.2.y, y.2.z] y.1
    have e2 := h.field t [(A y.2).x, (A y.2).y, (A y.2).z] (A y.1)
    rw [h.terms]
    simp only [secondOrder, onState, e1, e2, h.comm]
    rfl
  solver := rkSolver_hom (fun a b => Prod.ext (h.add _ _) (h.add _ _)) (fun k a => Prod.ext (h.smul _ _) (h.smul _ _)) tb
    h.interp h.err
  ctrl := hc
  t0 := rfl
  t1 := rfl
  dt0 := rfl
  y0 := rfl
  max_steps := rfl
  saveat := rfl
  event := by
    show (o.event = none ∧ o.event = none) ∨ ∃ e e', o.event = some e ∧ o.event = some e' ∧
      ∀ t y, e' t (onState A y) o.args = e t y o.args
    cases he : o.event with
    | none => exact Or.inl ⟨rfl, rfl⟩
    | some e => exact Or.inr ⟨e, e, rfl, rfl, h.event e he⟩

/-- C74: `fixed_steps` commutes with every linear symmetry of the force: same times, same event, same errors, every state
turned. -/
theorem C74_fixed (h : Symmetric acc f A o interp err) (ctol t1 dt : ℝ) (ms : Option ℕ) (x0 : V3 ℝ × V3 ℝ) :
    fixed_steps ctol o (onState A x0) t1 dt (rkSolver tb interp err) ms
      = (fixed_steps ctol o x0 t1 dt (rkSolver tb interp err) ms).map (Except.map (Sol.map (onState A))) :=
  (h.callHom (constant_hom _) { t0 := true, steps := true } (some dt) ms t1 x0).diffeqsolve ctol

/-- C74: so do the other propagators if the controller's decisions do not change under the symmetry. -/
theorem C74_adaptive {γ : Type} (h : Symmetric acc f A o interp err) {ctrl : Controller ℝ (V3 ℝ × V3 ℝ) γ}
    (hc : ControllerHom (onState A) id ctrl ctrl) (ctol t1 : ℝ) (ms : Option ℕ) (ts : List ℝ) (sa : SaveAt ℝ)
    (dt0 : Option ℝ) (x0 : V3 ℝ × V3 ℝ) :
    adaptive_steps ctol o (onState A x0) t1 (rkSolver tb interp err) ctrl ms
      = (adaptive_steps ctol o x0 t1 (rkSolver tb interp err) ctrl ms).map (Except.map (Sol.map (onState A))) ∧
    custom_steps ctol o (onState A x0) t1 ts (rkSolver tb interp err) ctrl
      = (custom_steps ctol o x0 t1 ts (rkSolver tb interp err) ctrl).map (Except.map (Sol.map (onState A))) ∧
    to_final ctol o (onState A x0) t1 (rkSolver tb interp err) ctrl
      = (to_final ctol o x0 t1 (rkSolver tb interp err) ctrl).map (Except.map (Sol.map (onState A))) ∧
    cowell_method ctol o (onState A x0) t1 sa (rkSolver tb interp err) ctrl dt0 ms
      = (cowell_method ctol o x0 t1 sa (rkSolver tb interp err) ctrl dt0 ms).map (Except.map (Sol.map (onState A))) :=
  ⟨(h.callHom hc { t0 := true, steps := true } none ms t1 x0).diffeqsolve ctol,
    (h.callHom hc { ts := ts } none none t1 x0).diffeqsolve ctol,
    (h.callHom hc { t1 := true } none (some 4096) t1 x0).diffeqsolve ctol,
    (h.callHom hc sa dt0 ms t1 x0).diffeqsolve ctol⟩

end

/-! ## The forces of the library -/

/-- The event `radius_islow` on states `(r, v)`. -/
noncomputable def radiusEvent : Event ℝ (V3 ℝ × V3 ℝ) := fun t y args => radius_islow t ⟨y.1, [y.2.x, y.2.y, y.2.z]⟩ args

/-- C74, point mass: every rotation, with or without the radius event. -/
theorem C74_point_mass {R : M3 ℝ} (hR : IsRotation R) {o : OrbDynx ℝ (V3 ℝ × V3 ℝ)} {mu : ℝ}
    (ho : o.terms = secondOrder point_mass_grav) (hm : o.args "mu" = some mu)
    (he : o.event = none ∨ o.event = some radiusEvent) (tb : Tableau ℝ)
    {interp : ℝ → ℝ → V3 ℝ × V3 ℝ → V3 ℝ × V3 ℝ → ℝ → V3 ℝ × V3 ℝ} {err : ℝ → ℝ → V3 ℝ × V3 ℝ → V3 ℝ × V3 ℝ → V3 ℝ × V3 ℝ}
    (hi : ∀ t0 t1 a b t, interp t0 t1 (onState (M3.mulVec R) a) (onState (M3.mulVec R) b) t
      = onState (M3.mulVec R) (interp t0 t1 a b t))
    (her : ∀ t0 t1 a b, err t0 t1 (onState (M3.mulVec R) a) (onState (M3.mulVec R) b) = onState (M3.mulVec R) (err t0 t1 a b))
    (ctol t1 dt : ℝ) (ms : Option ℕ) (r v : V3 ℝ) :
    fixed_steps ctol o (M3.mulVec R r, M3.mulVec R v) t1 dt (rkSolver tb interp err) ms
      = (fixed_steps ctol o (r, v) t1 dt (rkSolver tb interp err) ms).map
          (Except.map (Sol.map (onState (M3.mulVec R)))) := by
  refine C74_fixed (acc := point_mass_grav) (f := fun p => (-(mu / V3.norm p ^ 3)) • p) (A := M3.mulVec R) ?_ ctol t1 dt ms (r, v)
  refine ⟨fun t rest p => C41_point_mass_is_newton t mu _ o.args hm, ho, mulVec_add R, mulVec_smul R,
    fun p => by rw [hR.norm, mulVec_smul], ?_, hi, her⟩
  intro e hee t y
  rcases he with he | he
  · rw [he] at hee; simp at hee
  · rw [he, Option.some.injEq] at hee
    subst hee
    simp only [radiusEvent, radius_islow, onState, hR.norm]

/-- C74, point mass with `J2`, `J3`, `J4`: every rotation about the polar axis. -/
theorem C74_zonal (a : ℝ) {o : OrbDynx ℝ (V3 ℝ × V3 ℝ)} {f0 f2 f3 f4 : V3 ℝ → V3 ℝ}
    (ho : o.terms = secondOrder (addAcc (addAcc (addAcc point_mass_grav j2_acc) j3_acc) j4_acc))
    (h0 : IsField point_mass_grav o.args f0) (h2 : IsField j2_acc o.args f2) (h3 : IsField j3_acc o.args f3)
    (h4 : IsField j4_acc o.args f4) (he : o.event = none ∨ o.event = some radiusEvent)
    (tb : Tableau ℝ)
    {interp : ℝ → ℝ → V3 ℝ × V3 ℝ → V3 ℝ × V3 ℝ → ℝ → V3 ℝ × V3 ℝ} {err : ℝ → ℝ → V3 ℝ × V3 ℝ → V3 ℝ × V3 ℝ → V3 ℝ × V3 ℝ}
    (hi : ∀ t0 t1 b c t, interp t0 t1 (onState (M3.mulVec (rotmat3dz a)) b) (onState (M3.mulVec (rotmat3dz a)) c) t
      = onState (M3.mulVec (rotmat3dz a)) (interp t0 t1 b c t))
    (her : ∀ t0 t1 b c, err t0 t1 (onState (M3.mulVec (rotmat3dz a)) b) (onState (M3.mulVec (rotmat3dz a)) c)
      = onState (M3.mulVec (rotmat3dz a)) (err t0 t1 b c))
    (ctol t1 dt : ℝ) (ms : Option ℕ) (r v : V3 ℝ) :
    fixed_steps ctol o (M3.mulVec (rotmat3dz a) r, M3.mulVec (rotmat3dz a) v) t1 dt (rkSolver tb interp err) ms
      = (fixed_steps ctol o (r, v) t1 dt (rkSolver tb interp err) ms).map
          (Except.map (Sol.map (onState (M3.mulVec (rotmat3dz a))))) := by
  refine C74_fixed (acc := addAcc (addAcc (addAcc point_mass_grav j2_acc) j3_acc) j4_acc)
    (f := fun p => f0 p + f2 p + f3 p + f4 p) (A := M3.mulVec (rotmat3dz a)) ?_ ctol t1 dt ms (r, v)
  refine ⟨fun t rest p => ?_, ho, mulVec_add _, mulVec_smul _, fun p => ?_, ?_, hi, her⟩
  · simp only [addAcc, h0 t rest p, h2 t rest p, h3 t rest p, h4 t rest p]; rfl
  · obtain ⟨e0, e2, e3, e4⟩ := C42_axial h0 h2 h3 h4 a p
    simp only [e0, e2, e3, e4, mulVec_add]
  · intro e hee t y
    rcases he with he | he
    · rw [he] at hee; simp at hee
    · rw [he, Option.some.injEq] at hee
      subst hee
      simp only [radiusEvent, radius_islow, onState, norm_rotz]

/-! ## The saved steps -/

/-- The saved entries of a step-saving run with an autonomous field: each is one step of the method from the one before,
its first stage evaluated afresh (the derivative kept from the previous step is the same). -/
theorem rk_chain {Y γ : Type} [Add Y] [SMul ℝ Y] {c : Call ℝ Y Y γ} {P : γ → Prop} {tb : Tableau ℝ} {F : Y → Y}
    {interp : ℝ → ℝ → Y → Y → ℝ → Y} {err : ℝ → ℝ → Y → Y → Y} {ctol : ℝ} {s : Sol ℝ Y}
    (hsol : c.solver = rkSolver tb interp err) (hterm : ∀ t y, c.terms t y c.args = .ok (F y))
    (hs : c.saveat.steps = true) (h0 : c.saveat.t0 = true) (h1 : c.saveat.t1 = false) (hts : c.saveat.ts = [])
    (hc : 0 ≤ ctol) (h01 : c.t0 < c.t1) (hv : c.stepsize_controller.Valid c.dt0 P)
    (h : diffeqsolve ctol c = some (.ok s)) :
    s.saved.head? = some (c.t0, c.y0) ∧ s.saved.IsChain fun p q => p.1 < q.1 ∧ q.2 = rkStep tb F (q.1 - p.1) p.2 := by
  obtain ⟨f, g, first, k, hf, hg, hi, e1, hr, -⟩ := steps_run hs h0 h1 hts hc h01 hv h
  have hfF : f = fun _ => F := by
    funext t y; exact traceTerms_ok hf t y _ (hterm t y)
  subst hfF
  refine ⟨?_, ?_⟩
  · obtain ⟨B, hB⟩ := keptRev_getLast (c.t0, c.y0) (coreAt ctol c (fun _ => F) g first) k
    rw [e1, hB]; simp
  · rw [e1, List.isChain_reverse]
    suffices key : ∀ k, (∀ j < k, running c.t1 (coreAt ctol c (fun _ => F) g first j) = true) →
        (coreAt ctol c (fun _ => F) g first k).solver = F (coreAt ctol c (fun _ => F) g first k).y ∧
        (keptRev (c.t0, c.y0) (coreAt ctol c (fun _ => F) g first) k).IsChain
          fun q p => p.1 < q.1 ∧ q.2 = rkStep tb F (q.1 - p.1) p.2 from (key k hr).2
    intro k
    induction k with
    | zero =>
      intro _
      refine ⟨?_, List.isChain_singleton _⟩
      show c.solver.init (fun _ => F) c.t0 c.y0 = F c.y0
      rw [hsol]; rfl
    | succ k ih =>
      intro hr
      obtain ⟨i1, i2⟩ := ih fun j hj => hr j (by omega)
      obtain ⟨hok, ⟨B, hB⟩, -⟩ := trace_inv (g := g) hc hv h01 hi k fun j hj => hr j (by omega)
      have hk := hr k (by omega)
      simp only [running, lt_real, Bool.and_eq_true, decide_eq_true_eq] at hk
      obtain ⟨n1, n2⟩ := hok.next hk.1
      obtain ⟨-, hcase⟩ := coreStep_ok (f := fun _ => F) (g := g) hc hv hok hk.1
      have hsolv : (coreStep ctol c (fun _ => F) g (coreAt ctol c (fun _ => F) g first k)).solver
          = if (coreStep ctol c (fun _ => F) g (coreAt ctol c (fun _ => F) g first k)).kept
            then (c.solver.step (fun _ => F) (coreAt ctol c (fun _ => F) g first k).tprev
              (coreAt ctol c (fun _ => F) g first k).tnext (coreAt ctol c (fun _ => F) g first k).y
              (coreAt ctol c (fun _ => F) g first k).solver).2.2.2
            else (coreAt ctol c (fun _ => F) g first k).solver := by
        unfold coreStep; dsimp only; split_ifs <;> simp_all
      rw [← coreAt_succ] at hcase hsolv
      set s := coreAt ctol c (fun _ => F) g first k with hsdef
      rcases hcase with ⟨e1, e2, e3, -⟩ | ⟨e1, e2, e3, -⟩
      · rw [e1] at hsolv
        simp only [keptRev, e1, Bool.false_eq_true, if_false] at hsolv ⊢
        exact ⟨by rw [hsolv, e3, i1], i2⟩
      · rw [e1] at hsolv
        simp only [keptRev, e1, if_true] at hsolv ⊢
        rw [hsol] at hsolv e3
        have hst : (rkSolver tb interp err).step (fun _ => F) s.tprev s.tnext s.y s.solver
            = ((rkStages (fun _ => F) s.tprev (s.tnext - s.tprev) s.y tb.rows [s.solver] s.y s.solver).1,
              interp s.tprev s.tnext s.y (rkStages (fun _ => F) s.tprev (s.tnext - s.tprev) s.y tb.rows [s.solver] s.y s.solver).1,
              err s.tprev s.tnext s.y (rkStages (fun _ => F) s.tprev (s.tnext - s.tprev) s.y tb.rows [s.solver] s.y s.solver).1,
              (rkStages (fun _ => F) s.tprev (s.tnext - s.tprev) s.y tb.rows [s.solver] s.y s.solver).2) := rfl
        rw [hst, i1] at hsolv e3
        refine ⟨?_, ?_⟩
        · rw [hsolv, e3]; exact rkStages_last F _ _ _ _ _ _
        · rw [hB] at i2 ⊢
          rw [List.isChain_cons_cons]
          refine ⟨⟨?_, ?_⟩, i2⟩
          · show s.tprev < _
            rw [e2]; exact n1
          · show (coreAt ctol c (fun _ => F) g first (k + 1)).y = _
            rw [e3]
            show _ = (rkStages _ _ _ _ _ _ _ _).1
            rw [e2]
            rw [rkStages_autonomous F s.tprev (s.tnext - s.tprev)]

/-! ## Invariant subspaces -/

section
variable {Y : Type} [Add Y] [SMul ℝ Y] {F : Y → Y} {W : Y → Prop} (hadd : ∀ a k (c : ℝ), W a → W k → W (a + c • k))
include hadd

theorem rkCombine_mem (h : ℝ) (row : List ℝ) : ∀ (ks : List Y) (y : Y), W y → (∀ k ∈ ks, W k) → W (rkCombine h y row ks) := by
  induction row with
  | nil => intro ks y hy _; exact hy
  | cons a row ih =>
    intro ks y hy hk
    cases ks with
    | nil => exact hy
    | cons k ks => exact ih ks _ (hadd y k _ hy (hk k (by simp))) fun k' hk' => hk k' (by simp [hk'])

theorem rkStages_mem (hF : ∀ y, W y → W (F y)) (t h : ℝ) {y : Y} (hy : W y) : ∀ (rows : List (ℝ × List ℝ)) (ks : List Y)
    (yl kl : Y), (∀ k ∈ ks, W k) → W yl → W (rkStages (fun _ => F) t h y rows ks yl kl).1 := by
  intro rows
  induction rows with
  | nil => intro ks yl kl _ hl; exact hl
  | cons p rest ih =>
    intro ks yl kl hk _
    simp only [rkStages]
    have hw := rkCombine_mem hadd h p.2 ks y hy hk
    refine ih _ _ _ (fun k hk' => ?_) hw
    rcases List.mem_append.1 hk' with hk' | hk'
    · exact hk k hk'
    · rw [List.mem_singleton] at hk'; rw [hk']; exact hF _ hw

theorem rkStep_mem (hF : ∀ y, W y → W (F y)) (tb : Tableau ℝ) (h : ℝ) {y : Y} (hy : W y) : W (rkStep tb F h y) :=
  rkStages_mem hadd hF h h hy _ _ _ _ (fun k hk => by rw [List.mem_singleton] at hk; rw [hk]; exact hF _ hy) hy

end

theorem chain_mem {Y : Type} {W : Y → Prop} {G : ℝ → Y → Y} (hG : ∀ h y, W y → W (G h y)) : ∀ (l : List (ℝ × Y)) (p0 : ℝ × Y),
    l.head? = some p0 → W p0.2 → l.IsChain (fun p q => p.1 < q.1 ∧ q.2 = G (q.1 - p.1) p.2) → ∀ p ∈ l, W p.2 := by
  intro l
  induction l with
  | nil => intro p0 h; simp at h
  | cons a l ih =>
    intro p0 h0 hw hch p hp
    simp only [List.head?_cons, Option.some.injEq] at h0
    subst h0
    rcases List.mem_cons.1 hp with rfl | hp
    · exact hw
    · cases l with
      | nil => simp at hp
      | cons b l =>
        rw [List.isChain_cons_cons] at hch
        exact ih b rfl (by rw [hch.1.2]; exact hG _ _ hw) hch.2 p hp

section
variable {o : OrbDynx ℝ (V3 ℝ × V3 ℝ)} {tb : Tableau ℝ} {interp : ℝ → ℝ → V3 ℝ × V3 ℝ → V3 ℝ × V3 ℝ → ℝ → V3 ℝ × V3 ℝ}
  {err : ℝ → ℝ → V3 ℝ × V3 ℝ → V3 ℝ × V3 ℝ → V3 ℝ × V3 ℝ} {ctol t1 : ℝ} {ms : Option ℕ} {s : Sol ℝ (V3 ℝ × V3 ℝ)} {r v : V3 ℝ}

/-- A run of `fixed_steps` with a positive step, or of `adaptive_steps` with a valid controller, that came back with `s`. -/
def StepsRun (o : OrbDynx ℝ (V3 ℝ × V3 ℝ)) (ctol t1 : ℝ) (ms : Option ℕ) (x0 : V3 ℝ × V3 ℝ)
    (solver : Solver ℝ (V3 ℝ × V3 ℝ) (V3 ℝ × V3 ℝ)) (s : Sol ℝ (V3 ℝ × V3 ℝ)) : Prop :=
  (∃ dt, 0 < dt ∧ fixed_steps ctol o x0 t1 dt solver ms = some (.ok s)) ∨
  ∃ (γ : Type) (ctrl : Controller ℝ (V3 ℝ × V3 ℝ) γ) (P : γ → Prop), ctrl.Valid none P ∧
    adaptive_steps ctol o x0 t1 solver ctrl ms = some (.ok s)

/-- C74: every saved state is one step of the method from the state before, all stages evaluated at that state. -/
theorem C74_chain {acc : ℝ → State ℝ → Args ℝ → Except PyErr (V3 ℝ)} {f : V3 ℝ → V3 ℝ} (hf : IsField acc o.args f)
    (ho : o.terms = secondOrder acc) (hc : 0 ≤ ctol) (h1 : 0 < t1) {x0 : V3 ℝ × V3 ℝ}
    (h : StepsRun o ctol t1 ms x0 (rkSolver tb interp err) s) :
    s.saved.head? = some (0, x0) ∧
    s.saved.IsChain fun p q => p.1 < q.1 ∧ q.2 = rkStep tb (fun y : V3 ℝ × V3 ℝ => (y.2, f y.1)) (q.1 - p.1) p.2 := by
  have hterm : ∀ t y, o.terms t y o.args = .ok (y.2, f y.1) := by
    intro t y
    have e1 := hf t [y.2.x, y.2.y, y.2.z] y.1
    rw [ho]; simp only [secondOrder, e1]; rfl
  rcases h with ⟨dt, hdt, h⟩ | ⟨γ, ctrl, P, hv, h⟩
  · have h0 : (fixedCall o x0 t1 dt ms (rkSolver tb interp err)).t0 = 0 := Nat.cast_zero
    have := rk_chain (c := fixedCall o x0 t1 dt ms (rkSolver tb interp err)) rfl hterm rfl rfl rfl rfl hc
      (by rw [h0]; exact h1) (constant_valid hdt) h
    rw [h0] at this
    exact this
  · have h0 : (adaptiveCall o x0 t1 ms (rkSolver tb interp err) ctrl).t0 = 0 := Nat.cast_zero
    have := rk_chain (c := adaptiveCall o x0 t1 ms (rkSolver tb interp err) ctrl) rfl hterm rfl rfl rfl rfl hc
      (by rw [h0]; exact h1) hv h
    rw [h0] at this
    exact this

/-- C74, point mass: the propagated motion stays exactly in the plane of the initial position and velocity, whatever the
tableau, the controller and the step. -/
theorem C74_planar {mu : ℝ} (ho : o.terms = secondOrder point_mass_grav) (hm : o.args "mu" = some mu) (hc : 0 ≤ ctol)
    (h1 : 0 < t1) (h : StepsRun o ctol t1 ms (r, v) (rkSolver tb interp err) s) :
    ∀ p ∈ s.saved, ∃ a b c d : ℝ, p.2 = (a • r + b • v, c • r + d • v) := by
  obtain ⟨h0, hch⟩ := C74_chain (f := fun p => (-(mu / V3.norm p ^ 3)) • p)
    (fun t rest p => C41_point_mass_is_newton t mu _ o.args hm) ho hc h1 h
  refine chain_mem (W := fun y : V3 ℝ × V3 ℝ => ∃ a b c d : ℝ, y = (a • r + b • v, c • r + d • v)) (fun h y hy => ?_) _ _ h0
    ⟨1, 0, 0, 1, Prod.ext (V3.ext (by simp) (by simp) (by simp)) (V3.ext (by simp) (by simp) (by simp))⟩ hch
  refine rkStep_mem (W := fun y : V3 ℝ × V3 ℝ => ∃ a b c d : ℝ, y = (a • r + b • v, c • r + d • v)) ?_ ?_ tb h hy
  · rintro _ _ k ⟨a, b, c, d, rfl⟩ ⟨a', b', c', d', rfl⟩
    refine ⟨a + k * a', b + k * b', c + k * c', d + k * d', Prod.ext (V3.ext ?_ ?_ ?_) (V3.ext ?_ ?_ ?_)⟩ <;> simp <;> ring
  · rintro _ ⟨a, b, c, d, rfl⟩
    refine ⟨c, d, -(mu / V3.norm (a • r + b • v) ^ 3) * a, -(mu / V3.norm (a • r + b • v) ^ 3) * b, Prod.ext rfl (V3.ext ?_ ?_ ?_)⟩ <;>
      simp <;> ring

/-- So the direction of the angular momentum of the propagated motion is constant. -/
theorem C74_plane_normal {mu : ℝ} (ho : o.terms = secondOrder point_mass_grav) (hm : o.args "mu" = some mu) (hc : 0 ≤ ctol)
    (h1 : 0 < t1) (h : StepsRun o ctol t1 ms (r, v) (rkSolver tb interp err) s) :
    ∀ p ∈ s.saved, ∃ k : ℝ, angular_momentum p.2.1 p.2.2 = k • angular_momentum r v := by
  intro p hp
  obtain ⟨a, b, c, d, e⟩ := C74_planar ho hm hc h1 h p hp
  refine ⟨a * d - b * c, ?_⟩
  rw [e]
  ext <;> simp [angular_momentum, V3.cross] <;> ring

/-- C74, point mass with `J2` and `J4`: equatorial motion stays exactly equatorial. -/
theorem C74_equatorial {f0 f2 f4 : V3 ℝ → V3 ℝ} (ho : o.terms = secondOrder (addAcc (addAcc point_mass_grav j2_acc) j4_acc))
    (h0 : IsField point_mass_grav o.args f0) (h2 : IsField j2_acc o.args f2) (h4 : IsField j4_acc o.args f4)
    (hc : 0 ≤ ctol) (h1 : 0 < t1) (hr : r.z = 0) (hv : v.z = 0) (h : StepsRun o ctol t1 ms (r, v) (rkSolver tb interp err) s) :
    ∀ p ∈ s.saved, p.2.1.z = 0 ∧ p.2.2.z = 0 := by
  obtain ⟨hh, hch⟩ := C74_chain (f := fun p => f0 p + f2 p + f4 p)
    (fun t rest p => by simp only [addAcc, h0 t rest p, h2 t rest p, h4 t rest p]; rfl) ho hc h1 h
  refine chain_mem (W := fun y : V3 ℝ × V3 ℝ => y.1.z = 0 ∧ y.2.z = 0) (fun h y hy => ?_) _ _ hh ⟨hr, hv⟩ hch
  refine rkStep_mem (W := fun y : V3 ℝ × V3 ℝ => y.1.z = 0 ∧ y.2.z = 0) ?_ ?_ tb h hy
  · rintro a k c ⟨a1, a2⟩ ⟨k1, k2⟩
    exact ⟨by show a.1.z + c * k.1.z = 0; rw [a1, k1]; ring, by show a.2.z + c * k.2.z = 0; rw [a2, k2]; ring⟩
  · rintro y ⟨y1, y2⟩
    refine ⟨y2, ?_⟩
    have e0 := h0 0 [] y.1
    have e2 := h2 0 [] y.1
    have e4 := h4 0 [] y.1
    have z0 : (f0 y.1).z = 0 := by
      rcases hm : o.args "mu" with _ | mu <;>
        simp only [point_mass_grav, Args.get, hm, bind, Except.bind, pure, Except.pure, reduceCtorEq, Except.ok.injEq] at e0
      rw [← e0]; simp [y1]
    have z2 : (f2 y.1).z = 0 := by
      rcases hm : o.args "mu" with _ | mu <;> rcases hj : o.args "J2" with _ | J <;> rcases hq : o.args "R_eq" with _ | R <;>
        simp only [j2_acc, Args.get, hm, hj, hq, bind, Except.bind, pure, Except.pure, reduceCtorEq, Except.ok.injEq] at e2
      rw [← e2]; simp [y1]
    have z4 : (f4 y.1).z = 0 := by
      rcases hm : o.args "mu" with _ | mu <;> rcases hj : o.args "J4" with _ | J <;> rcases hq : o.args "R_eq" with _ | R <;>
        simp only [j4_acc, Args.get, hm, hj, hq, bind, Except.bind, pure, Except.pure, reduceCtorEq, Except.ok.injEq] at e4
      rw [← e4]; simp [y1]
    show (f0 y.1).z + (f2 y.1).z + (f4 y.1).z = 0
    rw [z0, z2, z4]; ring

end

/-- With `J3` it does not: the acceleration points out of the equatorial plane. -/
theorem C74_equatorial_j3 {t mu J3 R : ℝ} {x : State ℝ} {args : Args ℝ} (hm : args "mu" = some mu) (h3 : args "J3" = some J3)
    (hR : args "R_eq" = some R) (hz : x.pos.z = 0) (hx : x.pos ≠ ⟨0, 0, 0⟩) (hmu : mu ≠ 0) (hJ : J3 ≠ 0) (hRe : R ≠ 0) :
    ∃ a, j3_acc t x args = .ok a ∧ a.z ≠ 0 := by
  have hn : V3.norm x.pos ≠ 0 := ((norm_pos _).2 hx).ne'
  refine ⟨_, by simp only [j3_acc, Args.get, hm, h3, hR, bind, Except.bind, pure, Except.pure]; rfl, ?_⟩
  simp only [hz]
  simp only [Nat.cast_ofNat]
  intro h
  have : mu * J3 * R ^ 3 / V3.norm x.pos ^ 5 * (3 / 2) = 0 := by
    rw [← h]; field_simp; ring
  have h5 : mu * J3 * R ^ 3 / V3.norm x.pos ^ 5 * (3 / 2) ≠ 0 := by positivity
  exact h5 this

/-! ## What is not conserved -/

/-- Euler's method. -/
noncomputable def eulerTb : Tableau ℝ where
  rows := [(1, [1])]

/-- C74, refuted: the angular momentum is not conserved. One Euler step multiplies it by `1 + h² mu / |r|³`. -/
theorem C74_momentum_refuted (mu h : ℝ) (r v : V3 ℝ) :
    let y := rkStep eulerTb (fun y : V3 ℝ × V3 ℝ => (y.2, (-(mu / V3.norm y.1 ^ 3)) • y.1)) h (r, v)
    angular_momentum y.1 y.2 = (1 + h ^ 2 * (mu / V3.norm r ^ 3)) • angular_momentum r v := by
  intro y
  have e : y = (r + (h * 1) • v, v + (h * 1) • ((-(mu / V3.norm r ^ 3)) • r)) := rfl
  rw [e]
  ext <;> simp [angular_momentum, V3.cross] <;> ring

/-- Nor is the energy: one Euler step of length 1 from a circular orbit of energy `-1/2` gives energy `1 - 1/√2`: the orbit has become
a hyperbola. -/
theorem C74_energy_refuted :
    let y := rkStep eulerTb (fun y : V3 ℝ × V3 ℝ => (y.2, (-((1 : ℝ) / V3.norm y.1 ^ 3)) • y.1)) 1 (⟨1, 0, 0⟩, ⟨0, 1, 0⟩)
    V3.norm (⟨0, 1, 0⟩ : V3 ℝ) ^ 2 / 2 - 1 / V3.norm (⟨1, 0, 0⟩ : V3 ℝ) = -1 / 2 ∧
      V3.norm y.2 ^ 2 / 2 - 1 / V3.norm y.1 = 1 - 1 / Real.sqrt 2 := by
  intro y
  have n1 : V3.norm (⟨1, 0, 0⟩ : V3 ℝ) = 1 := by simp [V3.norm, dot]
  have n2 : V3.norm (⟨0, 1, 0⟩ : V3 ℝ) = 1 := by simp [V3.norm, dot]
  have e : y = (⟨1, 0, 0⟩ + ((1 : ℝ) * 1) • (⟨0, 1, 0⟩ : V3 ℝ),
    (⟨0, 1, 0⟩ : V3 ℝ) + ((1 : ℝ) * 1) • ((-((1 : ℝ) / V3.norm (⟨1, 0, 0⟩ : V3 ℝ) ^ 3)) • (⟨1, 0, 0⟩ : V3 ℝ))) := rfl
  rw [n1] at e
  have y1 : y.1 = ⟨1, 1, 0⟩ := by rw [e]; ext <;> simp
  have y2 : y.2 = ⟨-1, 1, 0⟩ := by rw [e]; ext <;> simp
  refine ⟨by rw [n1, n2]; norm_num, ?_⟩
  rw [y1, y2]
  have m1 : V3.norm (⟨1, 1, 0⟩ : V3 ℝ) = Real.sqrt 2 := by simp only [V3.norm, dot, sqrt_real]; norm_num
  have m2 : V3.norm (⟨-1, 1, 0⟩ : V3 ℝ) = Real.sqrt 2 := by simp only [V3.norm, dot, sqrt_real]; norm_num
  rw [m1, m2, Real.sq_sqrt (by norm_num)]; norm_num

/-- The size of an error estimate in diffrax's `PIDController`: the root mean square of the components divided by
`atol + rtol max(|y0|, |y1|)`; the step is kept if it is below 1. (External code, from its documentation.) -/
noncomputable def rmsScaled (rtol atol : ℝ) (y0 y1 e : V3 ℝ × V3 ℝ) : ℝ :=
  let q := fun a b c : ℝ => (c / (atol + rtol * max |a| |b|)) ^ 2
  Real.sqrt ((q y0.1.x y1.1.x e.1.x + q y0.1.y y1.1.y e.1.y + q y0.1.z y1.1.z e.1.z
    + q y0.2.x y1.2.x e.2.x + q y0.2.y y1.2.y e.2.y + q y0.2.z y1.2.z e.2.z) / 6)

/-- C74, refuted for the default controller: its decisions depend on the axes. The same step is kept in one frame and rejected
in a frame turned about the z axis. -/
theorem C74_pid_refuted : ∃ (R : M3 ℝ) (y0 y1 e : V3 ℝ × V3 ℝ), IsRotation R ∧ ¬ rmsScaled 1 1 y0 y1 e < 1 ∧
    rmsScaled 1 1 (onState (M3.mulVec R) y0) (onState (M3.mulVec R) y1) (onState (M3.mulVec R) e) < 1 := by
  refine ⟨⟨⟨3 / 5, -4 / 5, 0⟩, ⟨4 / 5, 3 / 5, 0⟩, ⟨0, 0, 1⟩⟩, (⟨1, 0, 0⟩, ⟨0, 0, 0⟩), (⟨1, 0, 0⟩, ⟨0, 0, 0⟩),
    (⟨0, 3, 0⟩, ⟨0, 0, 0⟩), ?_, ?_, ?_⟩
  · refine ⟨?_, ?_⟩
    · ext <;> simp [M3.mul, M3.transpose, M3.eye, dot] <;> norm_num
    · simp [M3.det, dot, cross]; norm_num
  · rw [not_lt, rmsScaled, Real.le_sqrt' one_pos]
    norm_num
  · rw [rmsScaled, Real.sqrt_lt' one_pos]
    simp only [onState, M3.mulVec, dot]
    norm_num [abs_div]

/-- The hypotheses can be met: a run of ten Euler steps from a circular orbit comes back and stays in its plane. -/
example : ∃ s, StepsRun { terms := secondOrder point_mass_grav } 0 1 (some 10) ((⟨1, 0, 0⟩, ⟨0, 3 / 5, 4 / 5⟩) : V3 ℝ × V3 ℝ)
      (rkSolver eulerTb (fun _ _ y _ _ => y) (fun _ _ y _ => y)) s ∧
    ∀ p ∈ s.saved, ∃ a b c d : ℝ,
      p.2 = (a • (⟨1, 0, 0⟩ : V3 ℝ) + b • ⟨0, 3 / 5, 4 / 5⟩, c • (⟨1, 0, 0⟩ : V3 ℝ) + d • ⟨0, 3 / 5, 4 / 5⟩) := by
  have hm : (defaultArgs : Args ℝ) "mu" = some 1 := by simp [defaultArgs]
  obtain ⟨s, hs, -⟩ := C45_fixed_completes (o := { terms := secondOrder point_mass_grav })
    (x0 := ((⟨1, 0, 0⟩, ⟨0, 3 / 5, 4 / 5⟩) : V3 ℝ × V3 ℝ)) (t1 := 1)
    (solver := rkSolver eulerTb (fun _ _ y _ _ => y) (fun _ _ y _ => y)) (dt := 1 / 10) (m := 10) (le_refl (0 : ℝ)) one_pos
    (by norm_num) rfl (by simp only [secondOrder, C41_point_mass_is_newton 0 1 _ _ hm]; rfl) (by norm_num)
  have hr : StepsRun { terms := secondOrder point_mass_grav } 0 1 (some 10) ((⟨1, 0, 0⟩, ⟨0, 3 / 5, 4 / 5⟩) : V3 ℝ × V3 ℝ)
      (rkSolver eulerTb (fun _ _ y _ _ => y) (fun _ _ y _ => y)) s := Or.inl ⟨1 / 10, by norm_num, hs⟩
  exact ⟨s, hr, C74_planar rfl hm le_rfl one_pos hr⟩

end Adx
