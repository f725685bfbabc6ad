import Verif.Lemmas.Cowell
import Mathlib.Algebra.Order.Floor.Semiring

/-! # C45: what the Cowell propagators return

For every vector field, every solver and every step-size controller meeting `Controller.Valid`. `Y` is
any type of states. The behaviour of `diffeqsolve` is the contract written in `Model/Cowell.lean`. -/

set_option linter.unusedSectionVars false

namespace Adx

section anyArith
variable {α : Type} [Add α] [Sub α] [Neg α] [Mul α] [Div α] [Pow α ℕ] [NatCast α] [JFun α]
variable {Y σ γ : Type} (ctol : α) (o : OrbDynx α Y) (x0 : Y) (t1 : α) (solver : Solver α Y σ)
  (ctrl : Controller α Y γ)

theorem diffeqsolve_isSome {c : Call α Y σ γ} {m : ℕ} (hm : c.max_steps = some m) :
    (diffeqsolve ctol c).isSome := by
  unfold diffeqsolve
  split_ifs
  · rfl
  · rfl
  · split
    · rfl
    · split
      · rfl
      · split
        · rfl
        · exact diffeqLoop_isSome _ _ _ _ _ hm

/-- C45: with an iteration limit a propagation always comes back, in any arithmetic; so does `to_final`,
whose limit is fixed. -/
theorem C45_returns (dt : α) (m : ℕ) (sa : SaveAt α) (dt0 : Option α) :
    (fixed_steps ctol o x0 t1 dt solver (some m)).isSome ∧
    (adaptive_steps ctol o x0 t1 solver ctrl (some m)).isSome ∧
    (to_final ctol o x0 t1 solver ctrl).isSome ∧
    (cowell_method ctol o x0 t1 sa solver ctrl dt0 (some m)).isSome :=
  ⟨diffeqsolve_isSome _ rfl, diffeqsolve_isSome _ rfl, diffeqsolve_isSome _ rfl,
    diffeqsolve_isSome _ rfl⟩

/-- C45: the four special propagators are the general one with the corresponding settings. -/
theorem C45_general (dt : α) (ms : Option ℕ) (ts : List α) :
    fixed_steps ctol o x0 t1 dt solver ms
      = cowell_method ctol o x0 t1 { t0 := true, steps := true } solver constantStepSize (some dt) ms ∧
    adaptive_steps ctol o x0 t1 solver ctrl ms
      = cowell_method ctol o x0 t1 { t0 := true, steps := true } solver ctrl none ms ∧
    custom_steps ctol o x0 t1 ts solver ctrl
      = cowell_method ctol o x0 t1 { ts := ts } solver ctrl none none ∧
    to_final ctol o x0 t1 solver ctrl = cowell_method ctol o x0 t1 { t1 := true } solver ctrl :=
  ⟨rfl, rfl, rfl, rfl⟩

/-- C45: the memory of a step-saving run is bounded by the iteration limit, in any arithmetic. -/
theorem steps_size {c : Call α Y σ γ} {s : Sol α Y} (hs : c.saveat.steps = true)
    (h0 : c.saveat.t0 = true) (h1 : c.saveat.t1 = false) (hts : c.saveat.ts = [])
    (h : diffeqsolve ctol c = some (.ok s)) {m : ℕ} (hm : c.max_steps = some m) :
    s.saved.length ≤ s.num_steps + 1 ∧ s.num_steps ≤ m := by
  obtain ⟨-, f, g, first, -, -, -, hl⟩ := diffeqsolve_ok _ _ h
  obtain ⟨k, -, hk, -, rfl⟩ := diffeqLoop_ok _ _ _ _ _ hl
  simp only [h0, hts, h1, if_true, Bool.false_eq_true, if_false, List.append_nil, savesAt_steps _ _ _ hs,
    List.length_reverse]
  exact ⟨keptRev_length _ _ _, hk m hm⟩

theorem C45_size {s : Sol α Y} (m : ℕ)
    (h : adaptive_steps ctol o x0 t1 solver ctrl (some m) = some (.ok s) ∨
      ∃ dt, fixed_steps ctol o x0 t1 dt solver (some m) = some (.ok s)) :
    s.saved.length ≤ s.num_steps + 1 ∧ s.num_steps ≤ m := by
  rcases h with h | ⟨dt, h⟩
  · exact steps_size ctol rfl rfl rfl rfl h rfl
  · exact steps_size ctol rfl rfl rfl rfl h rfl

end anyArith

variable {Y σ γ : Type} {ctol : ℝ} {o : OrbDynx ℝ Y} {x0 : Y} {t1 : ℝ} {solver : Solver ℝ Y σ}
  {ctrl : Controller ℝ Y γ} {P : γ → Prop}

/-- A step-saving run. -/
theorem steps_run {c : Call ℝ Y σ γ} {s : Sol ℝ Y} (hs : c.saveat.steps = true)
    (h0 : c.saveat.t0 = true) (h1 : c.saveat.t1 = false) (hts : c.saveat.ts = [])
    (hc : 0 ≤ ctol) (h01 : c.t0 < c.t1) (hv : c.stepsize_controller.Valid c.dt0 P)
    (h : diffeqsolve ctol c = some (.ok s)) :
    ∃ f g first k, traceTerms c = .ok f ∧ traceEvent c = .ok g ∧
      c.stepsize_controller.init f c.t0 c.t1 c.y0 c.dt0 = .ok first ∧
      s.saved = (keptRev (c.t0, c.y0) (coreAt ctol c f g first) k).reverse ∧
      (∀ j < k, running c.t1 (coreAt ctol c f g first j) = true) ∧
      (∀ m, c.max_steps = some m → k ≤ m) ∧
      s.num_steps = k ∧ s.event = (coreAt ctol c f g first k).event ∧
      (s.event = false → (coreAt ctol c f g first k).tprev = c.t1) := by
  obtain ⟨-, f, g, first, hf, hg, hi, hl⟩ := diffeqsolve_ok _ _ h
  obtain ⟨k, hr, hm, hrun, hres⟩ := diffeqLoop_ok _ _ _ _ _ hl
  refine ⟨f, g, first, k, hf, hg, hi, ?_, hr, hm, ?_, ?_, ?_⟩
  · rw [hres]
    simp only [h0, hts, h1, if_true, Bool.false_eq_true, if_false, List.append_nil,
      savesAt_steps _ _ _ hs]
  · rw [hres]
  · rw [hres]
  · intro he
    rw [hres] at he
    have hok := (trace_inv (g := g) hc hv h01 hi k hr).1
    by_contra hne
    have he' : (coreAt ctol c f g first k).event = false := he
    simp [running, lt_real, lt_of_le_of_ne hok.le hne, he'] at hrun

/-- What a step-saving run returns: the initial state at time 0; then every kept solver step in
order, each made from the entry before it, at strictly increasing times; at most `max_steps` of them;
none beyond `t1`; the last one at `t1` unless an event stopped the run. -/
def StepsContract (o : OrbDynx ℝ Y) (x0 : Y) (t1 : ℝ) (solver : Solver ℝ Y σ) (ms : Option ℕ)
    (s : Sol ℝ Y) : Prop :=
  ∃ rest, s.saved = (0, x0) :: rest ∧
    (s.saved.map Prod.fst).Pairwise (· < ·) ∧
    (∃ f : ℝ → Y → Y, (∀ t y v, o.terms t y o.args = .ok v → f t y = v) ∧
      s.saved.IsChain fun p q => ∃ st, q.2 = (solver.step f p.1 q.1 p.2 st).1) ∧
    rest.length ≤ s.num_steps ∧ (∀ m, ms = some m → s.num_steps ≤ m) ∧
    (∀ p ∈ s.saved, p.1 ≤ t1) ∧
    (s.event = false → ∃ y, s.saved.getLast? = some (t1, y))

theorem traceTerms_ok {c : Call ℝ Y σ γ} {f : ℝ → Y → Y} (h : traceTerms c = .ok f) :
    ∀ t y v, c.terms t y c.args = .ok v → f t y = v := by
  intro t y v hv
  simp only [traceTerms, bind, Except.bind, pure, Except.pure] at h
  split at h
  · simp at h
  · simp only [Except.ok.injEq] at h
    subst h
    simp only [hv]

theorem isChain_pairwise {R : ℝ × Y → ℝ × Y → Prop} (hR : ∀ p q, R p q → p.1 < q.1)
    {l : List (ℝ × Y)} (h : l.IsChain R) : (l.map Prod.fst).Pairwise (· < ·) := by
  rw [← List.isChain_iff_pairwise]
  rw [List.isChain_map]
  exact h.imp hR

theorem keptRev_getLast (p0 : ℝ × Y) (cores : ℕ → Core ℝ Y σ γ) (k : ℕ) :
    ∃ B, keptRev p0 cores k = B ++ [p0] := by
  induction k with
  | zero => exact ⟨[], rfl⟩
  | succ k ih =>
    obtain ⟨B, hB⟩ := ih
    simp only [keptRev, hB]
    split_ifs
    · exact ⟨_ :: B, rfl⟩
    · exact ⟨B, rfl⟩

theorem steps_contract {c : Call ℝ Y σ γ} {s : Sol ℝ Y} (hs : c.saveat.steps = true)
    (h0 : c.saveat.t0 = true) (h1 : c.saveat.t1 = false) (hts : c.saveat.ts = [])
    (ht : c.terms = o.terms) (ha : c.args = o.args) (hsol : c.solver = solver)
    (hy : c.y0 = x0) (ht0 : c.t0 = 0) (ht1 : c.t1 = t1)
    (hc : 0 ≤ ctol) (h01 : 0 < t1) (hv : c.stepsize_controller.Valid c.dt0 P)
    (h : diffeqsolve ctol c = some (.ok s)) : StepsContract o x0 t1 solver c.max_steps s := by
  have h01' : c.t0 < c.t1 := by rw [ht0, ht1]; exact h01
  obtain ⟨f, g, first, k, hf, hg, hi, e1, hr, hm, e2, e3, e4⟩ := steps_run hs h0 h1 hts hc h01' hv h
  obtain ⟨hok, ⟨B, hB⟩, hch, -, -⟩ := trace_inv (g := g) hc hv h01' hi k hr
  obtain ⟨C, hC⟩ := keptRev_getLast (c.t0, c.y0) (coreAt ctol c f g first) k
  have hlen := keptRev_length (c.t0, c.y0) (coreAt ctol c f g first) k
  have hch' : s.saved.IsChain (StepOf c f) := by rw [e1, List.isChain_reverse]; exact hch
  have hpw : (s.saved.map Prod.fst).Pairwise (· < ·) := isChain_pairwise (fun p q h => h.1) hch'
  refine ⟨C.reverse, ?_, hpw, ⟨f, ?_, ?_⟩, ?_, ?_, ?_, ?_⟩
  · rw [e1, hC, List.reverse_append, ht0, hy]; rfl
  · rw [← ht, ← ha]; exact traceTerms_ok hf
  · rw [← hsol]; exact hch'.imp fun p q h => h.2
  · rw [hC, List.length_append] at hlen; simp at hlen ⊢; omega
  · intro m hm'; rw [e2]; exact hm m hm'
  · intro p hp
    rw [e1, List.mem_reverse] at hp
    rw [hB] at hp
    have hpw' : ((keptRev (c.t0, c.y0) (coreAt ctol c f g first) k).map Prod.fst).Pairwise
        (fun a b => b < a) := by
      rw [e1, List.map_reverse, List.pairwise_reverse] at hpw; exact hpw
    rw [hB, List.map_cons, List.pairwise_cons] at hpw'
    rw [← ht1]
    rcases List.mem_cons.1 hp with rfl | hp
    · exact hok.le
    · exact (hpw'.1 p.1 (List.mem_map_of_mem hp)).le.trans hok.le
  · intro he
    refine ⟨(coreAt ctol c f g first k).y, ?_⟩
    rw [e1, hB, List.reverse_cons, List.getLast?_append]
    simp [e4 he, ht1]

/-- C45, `adaptive_steps`. -/
theorem C45_adaptive {s : Sol ℝ Y} {ms : Option ℕ} (hc : 0 ≤ ctol) (h01 : 0 < t1)
    (hv : ctrl.Valid none P) (h : adaptive_steps ctol o x0 t1 solver ctrl ms = some (.ok s)) :
    StepsContract o x0 t1 solver ms s :=
  steps_contract (c := adaptiveCall o x0 t1 ms solver ctrl) rfl rfl rfl rfl rfl rfl rfl rfl
    Nat.cast_zero rfl hc h01 hv h

/-- The next attempt within the tolerance of the end or beyond it: a kept step is followed by one that ends at `t1`, a rejected one by an
attempt at half of what remains. Short of the end the controller has its way. -/
theorem C45_next_attempt {Z σ γ : Type} {c : Call ℝ Z σ γ} {Q : γ → Prop} {f : ℝ → Z → Z} {g : Option (ℝ → Z → ℝ)}
    (hv : c.stepsize_controller.Valid c.dt0 Q) {s : Core ℝ Z σ γ} (h : CoreOk c Q s) (hr : s.tprev < c.t1) :
    let r := c.solver.step f s.tprev s.tnext s.y s.solver
    let want := (c.stepsize_controller.adapt s.tprev s.tnext s.y r.1 r.2.2.1 s.ctrl).2.2.1
    let s' := coreStep ctol c f g s
    (want ≤ c.t1 - ctol → s'.tnext = want) ∧
    (c.t1 - ctol < want → s'.kept = true → s'.tnext = c.t1) ∧
    (c.t1 - ctol < want → s'.kept = false → s'.tnext - s'.tprev = (c.t1 - s.tprev) / 2) := by
  obtain ⟨h1, h2⟩ := h.next hr
  intro r want s'
  set a := c.stepsize_controller.adapt s.tprev s.tnext s.y r.1 r.2.2.1 s.ctrl with ha
  have ht : s'.tnext = clipToEnd ctol s'.tprev want c.t1 a.1 ∧ s'.kept = a.1 := by
    simp only [s', coreStep, want]
    split_ifs with hk
    · rw [← ha] at hk; exact ⟨by rw [← ha], hk.symm⟩
    · rw [← ha] at hk; exact ⟨by rw [← ha], by simpa using hk⟩
  have hp : a.1 = false → s'.tprev = s.tprev := by
    intro hk
    obtain ⟨h3, -⟩ := hv.reject h1 h.ctrl (y0 := s.y) (y1 := r.1) (err := r.2.2.1) hk
    have : s'.tprev = jmin a.2.1 c.t1 := by simp only [s', coreStep]; split_ifs <;> rfl
    rw [this, jmin_real, h3, min_eq_left h.le]
  rw [ht.1, ht.2]
  simp only [clipToEnd, lt_real, decide_eq_true_eq]
  refine ⟨fun h => if_neg (not_lt.2 h), fun h hk => by rw [if_pos h, if_pos hk], fun h hk => ?_⟩
  rw [if_pos h, if_neg (by simp [hk]), hp hk]
  push_cast
  ring

/-- The constant step size is a valid controller when the step is positive. -/
theorem constant_valid {dt : ℝ} (hdt : 0 < dt) :
    (constantStepSize : Controller ℝ Y ℝ).Valid (some dt) (· = dt) where
  init := by
    rintro f t0 t1 y0 r h -
    simp only [constantStepSize, Except.ok.injEq] at h
    subst h
    exact ⟨by simp [hdt], rfl⟩
  keep := by
    rintro t0 t1 y0 y1 err s h rfl -
    exact ⟨rfl, by simp [constantStepSize, hdt]⟩
  reject := by
    rintro t0 t1 y0 y1 err s h rfl h'
    simp [constantStepSize] at h'
  pres := by rintro t0 t1 y0 y1 err s h rfl; rfl

/-- C45, `fixed_steps`: the same contract for every positive step. -/
theorem C45_fixed {s : Sol ℝ Y} {dt : ℝ} {ms : Option ℕ} (hc : 0 ≤ ctol) (h01 : 0 < t1) (hdt : 0 < dt)
    (h : fixed_steps ctol o x0 t1 dt solver ms = some (.ok s)) : StepsContract o x0 t1 solver ms s :=
  steps_contract (c := fixedCall o x0 t1 dt ms solver) rfl rfl rfl rfl rfl rfl rfl rfl
    Nat.cast_zero rfl hc h01 (constant_valid hdt) h

/-- The state after `k` iterations with constant steps: at time `k dt`, or already at `t1`. -/
theorem fixed_core {dt : ℝ} {ms : Option ℕ} {f : ℝ → Y → Y} {g : Option (ℝ → Y → ℝ)} (hdt : 0 < dt)
    (hc : 0 ≤ ctol) (h01 : 0 < t1) (k : ℕ)
    (hr : ∀ j < k, running t1
      (coreAt ctol (fixedCall o x0 t1 dt ms solver) f g (0 + dt, dt) j) = true) :
    let s := coreAt ctol (fixedCall o x0 t1 dt ms solver) f g (0 + dt, dt)
    ((s k).tprev = k * dt ∨ (s k).tprev = t1) ∧
    ((s k).tprev = t1 → 1 ≤ k ∧ (k - 1 : ℝ) * dt < t1 ∧ t1 ≤ k * dt + ctol) ∧
    ((s k).tprev < t1 → (s k).ctrl = dt ∧ ((s k).tnext = (k + 1) * dt ∨
      ((s k).tnext = t1 ∧ t1 ≤ (k + 1) * dt + ctol))) ∧
    (keptRev ((0 : ℝ), x0) s k).map Prod.fst
      = (s k).tprev :: ((List.range k).map fun i : ℕ => (i : ℝ) * dt).reverse := by
  intro s
  induction k with
  | zero =>
    have e1 : (s 0).tprev = 0 := by simp [s, coreAt, coreInit, fixedCall]
    have e2 : (s 0).tnext = min (0 + dt) t1 := jmin_real _ _
    refine ⟨Or.inl (by simp [e1]), fun h => ?_, fun h => ⟨rfl, ?_⟩, ?_⟩
    · rw [e1] at h; linarith
    · rw [e2]
      rcases le_total (0 + dt) t1 with h1 | h1
      · left; rw [min_eq_left h1]; push_cast; ring
      · right; rw [min_eq_right h1]; refine ⟨rfl, ?_⟩; push_cast; linarith
    · simp [keptRev, e1]
  | succ k ih =>
    obtain ⟨h1, h2, h3, h4⟩ := ih fun j hj => hr j (by omega)
    have hk := hr k (by omega)
    simp only [running, lt_real, Bool.and_eq_true, decide_eq_true_eq] at hk
    have hlt : (s k).tprev < t1 := hk.1
    obtain ⟨h5, h6⟩ := h3 hlt
    have hprev : (s k).tprev = k * dt := by
      rcases h1 with h1 | h1
      · exact h1
      · linarith
    have hs : s (k + 1) = coreStep ctol (fixedCall o x0 t1 dt ms solver) f g (s k) := coreAt_succ _ _ _ _ _ _
    have hkept : (s (k + 1)).kept = true := by rw [hs]; rfl
    have htp : (s (k + 1)).tprev = min (s k).tnext t1 := by rw [hs]; exact jmin_real _ _
    have htn : (s (k + 1)).tnext
        = clipToEnd ctol (s (k + 1)).tprev ((s k).tnext + (s k).ctrl) t1 true := by rw [hs]; rfl
    have hct : (s (k + 1)).ctrl = (s k).ctrl := by rw [hs]; rfl
    have hcast : ((k + 1 : ℕ) : ℝ) = k + 1 := by push_cast; ring
    refine ⟨?_, fun h => ⟨by omega, ?_, ?_⟩, fun h => ⟨by rw [hct, h5], ?_⟩, ?_⟩
    · rw [htp, hcast]
      rcases h6 with h6 | ⟨h6, -⟩
      · rw [h6]; exact (min_choice _ _).imp id id
      · right; rw [h6, min_self]
    · rw [hcast]; rw [hprev] at hlt; ring_nf at hlt ⊢; linarith
    · rw [hcast]
      rcases h6 with h6 | ⟨h6, h7⟩
      · rw [htp, h6] at h
        have := min_le_left ((k + 1 : ℝ) * dt) t1
        linarith
      · exact h7
    · rw [hcast]
      have h7 : (s k).tnext = (k + 1) * dt := by
        rcases h6 with h6 | ⟨h6, -⟩
        · exact h6
        · rw [htp, h6, min_self] at h; exact absurd h (lt_irrefl _)
      rw [htn, h7, h5]
      simp only [clipToEnd, lt_real, decide_eq_true_eq, if_true]
      split_ifs with h8
      · right; refine ⟨rfl, ?_⟩; linarith
      · left; ring
    · simp only [keptRev, hkept, if_true, List.map_cons, h4, hprev, List.range_succ, List.map_append,
        List.reverse_append, List.map_nil, List.reverse_cons, List.reverse_nil, List.nil_append,
        List.singleton_append]

/-- C45, `fixed_steps`: the saved times are `0, dt, 2 dt, …` except the last one, which is `t1` when no
event occurs; the number of steps is determined by `t1` and `dt` (up to diffrax's end tolerance). -/
theorem C45_fixed_times {s : Sol ℝ Y} {dt : ℝ} {ms : Option ℕ} (hc : 0 ≤ ctol) (h01 : 0 < t1)
    (hdt : 0 < dt) (h : fixed_steps ctol o x0 t1 dt solver ms = some (.ok s)) :
    ∃ last, s.saved.map Prod.fst
        = ((List.range s.num_steps).map fun i : ℕ => (i : ℝ) * dt) ++ [last] ∧
      (last = s.num_steps * dt ∨ last = t1) ∧
      (s.event = false → last = t1 ∧ 1 ≤ s.num_steps ∧ (s.num_steps - 1 : ℝ) * dt < t1 ∧
        t1 ≤ s.num_steps * dt + ctol) := by
  have h0 : (fixedCall o x0 t1 dt ms solver).t0 = 0 := Nat.cast_zero
  have h01' : (fixedCall o x0 t1 dt ms solver).t0 < (fixedCall o x0 t1 dt ms solver).t1 := by
    rw [h0]; exact h01
  obtain ⟨f, g, first, k, hf, hg, hi, e1, hr, hm, e2, e3, e4⟩ :=
    steps_run (c := fixedCall o x0 t1 dt ms solver) rfl rfl rfl rfl hc h01' (constant_valid hdt) h
  have hfirst : first = (0 + dt, dt) := by
    simp only [fixedCall, constantStepSize, Except.ok.injEq, Nat.cast_zero] at hi
    exact hi.symm
  subst hfirst
  obtain ⟨h1, h2, h3, h4⟩ := fixed_core (o := o) (x0 := x0) (solver := solver) (ms := ms) (f := f)
    (g := g) hdt hc h01 k hr
  refine ⟨(coreAt ctol (fixedCall o x0 t1 dt ms solver) f g (0 + dt, dt) k).tprev, ?_, ?_, ?_⟩
  · rw [e1, List.map_reverse, h0]
    rw [show (fixedCall o x0 t1 dt ms solver).y0 = x0 from rfl, h4, e2]
    simp
  · rw [e2]; exact h1
  · intro he
    rw [e2]
    exact ⟨e4 he, h2 (e4 he)⟩

/-- C45, `fixed_steps`: without an event the run completes as soon as `max_steps * dt` covers `t1`. -/
theorem C45_fixed_completes {dt : ℝ} {m : ℕ} (hc : 0 ≤ ctol) (h01 : 0 < t1) (hdt : 0 < dt)
    (he : o.event = none) {v : Y} (hf : o.terms 0 x0 o.args = .ok v) (hm : t1 ≤ m * dt) :
    ∃ s, fixed_steps ctol o x0 t1 dt solver (some m) = some (.ok s) ∧ s.event = false := by
  set c := fixedCall o x0 t1 dt (some m) solver with hcdef
  have h0 : c.t0 = 0 := Nat.cast_zero
  obtain ⟨f, hf'⟩ : ∃ f, traceTerms c = .ok f := by
    simp only [traceTerms, bind, Except.bind, pure, Except.pure]
    rw [show c.terms c.t0 c.y0 c.args = .ok v by rw [h0]; exact hf]
    exact ⟨_, rfl⟩
  have hg : traceEvent c = .ok none := by
    simp only [traceEvent, show c.event = none from he]
  have hi : c.stepsize_controller.init f c.t0 c.t1 c.y0 c.dt0 = .ok (0 + dt, dt) := by
    simp [hcdef, fixedCall, constantStepSize]
  have hsolve : fixed_steps ctol o x0 t1 dt solver (some m) = diffeqLoop ctol c f none (0 + dt, dt) := by
    change diffeqsolve ctol c = _
    unfold diffeqsolve
    simp only [hf', hg, hi]
    simp [hcdef, fixedCall, tsOk]
  obtain ⟨res, hres⟩ := Option.isSome_iff_exists.1
    (diffeqLoop_isSome ctol c f none (0 + dt, dt) (m := m) rfl)
  obtain ⟨k, hj, hend, hr⟩ := diffeqLoop_some _ _ _ _ _ hres
  obtain ⟨hrun, -⟩ := loop_facts _ _ _ _ _ hj
  obtain ⟨h1, -, -, -⟩ := fixed_core (o := o) (x0 := x0) (solver := solver) (ms := some m) (f := f)
    (g := none) hdt hc h01 k hrun
  have h01' : c.t0 < c.t1 := by rw [h0]; exact h01
  have hev := (trace_inv (g := none) hc (constant_valid hdt) h01' hi k hrun).2.2.2.1 rfl
  by_cases hrk : running c.t1 (coreAt ctol c f none (0 + dt, dt) k) = true
  · exfalso
    have hkm : m ≤ k := by
      rw [show c.max_steps = some m from rfl] at hend
      simp only [loopCond, hrk, Bool.true_and, num_steps_coreAt] at hend
      simpa using hend
    simp only [running, lt_real, Bool.and_eq_true, decide_eq_true_eq] at hrk
    have hkm' : (m : ℝ) * dt ≤ k * dt := by gcongr
    have : (coreAt ctol c f none (0 + dt, dt) k).tprev < t1 := hrk.1
    rcases h1 with h1 | h1
    · have h1' : (coreAt ctol c f none (0 + dt, dt) k).tprev = k * dt := h1
      linarith
    · have h1' : (coreAt ctol c f none (0 + dt, dt) k).tprev = t1 := h1
      linarith
  · rw [if_neg hrk] at hr
    exact ⟨_, by rw [hsolve, hres, hr], hev⟩

theorem tsOk_real {t0 t1 : ℝ} {ts : List ℝ} :
    tsOk t0 t1 ts = true ↔ (∀ t ∈ ts, t0 ≤ t ∧ t ≤ t1) ∧ ts.Pairwise (· ≤ ·) := by
  have h : ∀ ts : List ℝ, ((ts.zip ts.tail).all fun p => !JFun.lt p.2 p.1) = true ↔
      ts.IsChain (· ≤ ·) := by
    intro ts
    induction ts with
    | nil => simp
    | cons a l ih =>
      cases l with
      | nil => simp
      | cons b l =>
        rw [List.isChain_cons_cons, ← ih]
        simp [lt_real]
  rw [tsOk, Bool.and_eq_true, h, List.isChain_iff_pairwise]
  simp [lt_real]

/-- C45, `custom_steps`: requested times out of order or outside `[0, t1]` are refused. -/
theorem C45_custom_refused {ts : List ℝ}
    (h : ¬ ((∀ t ∈ ts, 0 ≤ t ∧ t ≤ t1) ∧ ts.Pairwise (· ≤ ·))) :
    custom_steps ctol o x0 t1 ts solver ctrl = some (.error .badTs) := by
  have h0 : (customCall o x0 t1 ts solver ctrl).t0 = 0 := Nat.cast_zero
  have : tsOk (customCall o x0 t1 ts solver ctrl).t0 t1 ts = false := by
    rw [h0, ← Bool.not_eq_true, tsOk_real]; exact h
  unfold custom_steps diffeqsolve
  simp only [show (customCall o x0 t1 ts solver ctrl).saveat.steps = false from rfl, Bool.false_and,
    Bool.false_eq_true, if_false, show (customCall o x0 t1 ts solver ctrl).saveat.ts = ts from rfl,
    show (customCall o x0 t1 ts solver ctrl).t1 = t1 from rfl, this, Bool.not_false, if_true]

theorem lt_of_mem_dropWhile {T : ℝ} {l : List ℝ} (h : l.Pairwise (· ≤ ·)) :
    ∀ t ∈ l.dropWhile (fun t => !JFun.lt T t), T < t := by
  induction l with
  | nil => simp
  | cons a l ih =>
    rw [List.pairwise_cons] at h
    intro t ht
    rw [List.dropWhile_cons] at ht
    split_ifs at ht with ha
    · exact ih h.2 t ht
    · have ha' : T < a := by simpa [lt_real] using ha
      rcases List.mem_cons.1 ht with rfl | ht
      · exact ha'
      · exact ha'.trans_le (h.1 t ht)

/-- An entry of a run saved by interpolation: the value of the interpolation over the kept step that
contains the time. -/
def Interpolated (c : Call ℝ Y σ γ) (f : ℝ → Y → Y) (p : ℝ × Y) : Prop :=
  ∃ a b ya st, a < b ∧ (a < p.1 ∨ (a = c.t0 ∧ p.1 = c.t0)) ∧ p.1 ≤ b ∧
    p.2 = (c.solver.step f a b ya st).2.1 p.1

theorem ts_inv {c : Call ℝ Y σ γ} {f : ℝ → Y → Y} {g : Option (ℝ → Y → ℝ)} {first : ℝ × γ}
    (hc : 0 ≤ ctol) (hv : c.stepsize_controller.Valid c.dt0 P) (h01 : c.t0 < c.t1)
    (hi : c.stepsize_controller.init f c.t0 c.t1 c.y0 c.dt0 = .ok first)
    (hs : c.saveat.steps = false) {ts : List ℝ} (hsort : ts.Pairwise (· ≤ ·)) (h0 : ∀ t ∈ ts, c.t0 ≤ t)
    (k : ℕ) (hrun : ∀ j < k, running c.t1 (coreAt ctol c f g first j) = true) :
    let w := savesAt c.saveat (coreAt ctol c f g first) ([], ts) k
    w.2.Pairwise (· ≤ ·) ∧ (∀ p ∈ w.1, Interpolated c f p) ∧
    ∀ t ∈ w.2, (coreAt ctol c f g first k).tprev < t ∨
      ((coreAt ctol c f g first k).tprev = c.t0 ∧ t = c.t0) := by
  induction k with
  | zero =>
    refine ⟨hsort, by simp [savesAt], fun t ht => ?_⟩
    rcases (h0 t ht).lt_or_eq with h | h
    · exact Or.inl h
    · exact Or.inr ⟨rfl, h.symm⟩
  | succ k ih =>
    obtain ⟨h1, h2, h3⟩ := ih fun j hj => hrun j (by omega)
    have hk := hrun k (by omega)
    simp only [running, lt_real, Bool.and_eq_true, decide_eq_true_eq] at hk
    have hok := (trace_inv (g := g) hc hv h01 hi k fun j hj => hrun j (by omega)).1
    obtain ⟨-, hcase⟩ := coreStep_ok (f := f) (g := g) hc hv hok hk.1
    obtain ⟨hn1, -⟩ := hok.next hk.1
    rw [← coreAt_succ] at hcase
    simp only [savesAt, saveStep]
    rcases hcase with ⟨e1, e2, -⟩ | ⟨e1, e2, -, e4, -⟩
    · simp only [e1, Bool.false_eq_true, if_false, e2]
      exact ⟨h1, h2, h3⟩
    · simp only [e1, if_true, hs, Bool.false_eq_true, if_false, List.append_nil]
      refine ⟨h1.sublist (List.dropWhile_sublist _), fun p hp => ?_, fun t ht => ?_⟩
      · rcases List.mem_append.1 hp with hp | hp
        · exact h2 p hp
        obtain ⟨t, ht, rfl⟩ := List.mem_map.1 hp
        refine ⟨_, _, (coreAt ctol c f g first k).y, (coreAt ctol c f g first k).solver, hn1, h3 t ((List.takeWhile_sublist _).subset ht), ?_, ?_⟩
        · have := List.all_eq_true.1 List.all_takeWhile t ht
          rw [e2] at this
          simpa [lt_real] using this
        · rw [e4]
      · exact Or.inl (lt_of_mem_dropWhile h1 t ht)

/-- C45, `custom_steps`: the entries are at the requested times, in order, all of them unless an event
stops the run; each value is read off the interpolation over the step containing the time. -/
theorem C45_custom {s : Sol ℝ Y} {ts : List ℝ} (hc : 0 ≤ ctol) (h01 : 0 < t1) (hv : ctrl.Valid none P)
    (h : custom_steps ctol o x0 t1 ts solver ctrl = some (.ok s)) :
    s.saved.map Prod.fst <+: ts ∧ (s.event = false → s.saved.map Prod.fst = ts) ∧
    ∃ f : ℝ → Y → Y, (∀ t y v, o.terms t y o.args = .ok v → f t y = v) ∧
      ∀ p ∈ s.saved, ∃ a b ya st, a < b ∧ (a < p.1 ∨ (a = 0 ∧ p.1 = 0)) ∧ p.1 ≤ b ∧
        p.2 = (solver.step f a b ya st).2.1 p.1 := by
  set c := customCall o x0 t1 ts solver ctrl with hcdef
  have h0 : c.t0 = 0 := Nat.cast_zero
  have h01' : c.t0 < c.t1 := by rw [h0]; exact h01
  change diffeqsolve ctol c = some (.ok s) at h
  obtain ⟨hts, f, g, first, hf, hg, hi, hl⟩ := diffeqsolve_ok _ _ h
  obtain ⟨k, hr, hm, hrun, hres⟩ := diffeqLoop_ok _ _ _ _ _ hl
  rw [tsOk_real] at hts
  obtain ⟨h1, h2, h3⟩ := ts_inv (ts := ts) (g := g) hc hv h01' hi rfl hts.2 (fun t ht => (hts.1 t ht).1)
    k hr
  have h4 := savesAt_ts (coreAt ctol c f g first) c.saveat rfl ts k
  have hsaved : s.saved = (savesAt c.saveat (coreAt ctol c f g first) ([], ts) k).1 := by
    rw [hres]
    simp only [show c.saveat.t0 = false from rfl, show c.saveat.t1 = false from rfl,
      Bool.false_eq_true, if_false, List.append_nil]
    rfl
  refine ⟨?_, fun he => ?_, f, traceTerms_ok hf, ?_⟩
  · rw [hsaved]; exact ⟨_, h4⟩
  · have hok := (trace_inv (g := g) hc hv h01' hi k hr).1
    have hend : (coreAt ctol c f g first k).tprev = t1 := by
      by_contra hne
      have he' : (coreAt ctol c f g first k).event = false := by rw [hres] at he; exact he
      simp [running, lt_real, lt_of_le_of_ne hok.le hne, he'] at hrun
    have hnil : (savesAt c.saveat (coreAt ctol c f g first) ([], ts) k).2 = [] := by
      rw [List.eq_nil_iff_forall_not_mem]
      intro t ht
      have hmem : t ∈ ts := by rw [← h4]; exact List.mem_append_right _ ht
      have := (hts.1 t hmem).2
      rcases h3 t ht with h5 | ⟨h5, h6⟩
      · rw [hend] at h5; exact absurd h5 (not_lt.2 this)
      · rw [hend] at h5; exact absurd h5 (by rw [h0]; exact h01.ne')
    rw [hnil, List.append_nil] at h4
    rw [hsaved, h4]
  · intro p hp
    rw [hsaved] at hp
    obtain ⟨a, b, ya, st, q1, q2, q3, q4⟩ := h2 p hp
    exact ⟨a, b, ya, st, q1, by rwa [h0] at q2, q3, q4⟩

/-- C45, `to_final`: exactly one entry, at `t1` unless an event stops the run. -/
theorem C45_final {s : Sol ℝ Y} (hc : 0 ≤ ctol) (h01 : 0 < t1) (hv : ctrl.Valid none P)
    (h : to_final ctol o x0 t1 solver ctrl = some (.ok s)) :
    ∃ t y, s.saved = [(t, y)] ∧ t ≤ t1 ∧ (s.event = false → t = t1) ∧ s.num_steps ≤ 4096 := by
  set c := finalCall o x0 t1 solver ctrl with hcdef
  have h0 : c.t0 = 0 := Nat.cast_zero
  have h01' : c.t0 < c.t1 := by rw [h0]; exact h01
  change diffeqsolve ctol c = some (.ok s) at h
  obtain ⟨hts, f, g, first, hf, hg, hi, hl⟩ := diffeqsolve_ok _ _ h
  obtain ⟨k, hr, hm, hrun, hres⟩ := diffeqLoop_ok _ _ _ _ _ hl
  have hok := (trace_inv (g := g) hc hv h01' hi k hr).1
  refine ⟨(coreAt ctol c f g first k).tprev, (coreAt ctol c f g first k).y, ?_, hok.le, fun he => ?_, ?_⟩
  · rw [hres]
    have := savesAt_none (coreAt ctol c f g first) c.saveat rfl k
    simp only [show c.saveat.t0 = false from rfl, show c.saveat.t1 = true from rfl,
      Bool.false_eq_true, if_false, if_true, show c.saveat.ts = [] from rfl, this, List.nil_append]
  · by_contra hne
    have he' : (coreAt ctol c f g first k).event = false := by rw [hres] at he; exact he
    simp [running, lt_real, lt_of_le_of_ne hok.le hne, he'] at hrun
  · rw [hres]; exact hm 4096 rfl

/-- C45, `to_final` returns the last entry of the step-saving run with the same settings, and fails in
the same way. -/
theorem C45_final_is_last (hc : 0 ≤ ctol) (h01 : 0 < t1) (hv : ctrl.Valid none P) :
    (∀ s, adaptive_steps ctol o x0 t1 solver ctrl = some (.ok s) →
      ∃ p, s.saved.getLast? = some p ∧ to_final ctol o x0 t1 solver ctrl = some (.ok { s with saved := [p] })) ∧
    (∀ e, adaptive_steps ctol o x0 t1 solver ctrl = some (.error e) →
      to_final ctol o x0 t1 solver ctrl = some (.error e)) := by
  set c := adaptiveCall o x0 t1 (some 4096) solver ctrl with hcdef
  set d := finalCall o x0 t1 solver ctrl with hddef
  have h0 : c.t0 = 0 := Nat.cast_zero
  have h01' : c.t0 < c.t1 := by rw [h0]; exact h01
  have hd : ∀ f g first k, coreAt ctol d f g first k = coreAt ctol c f g first k :=
    fun f g first k => coreAt_congr ctol c f g first d rfl rfl rfl rfl rfl k
  have hloop : ∀ f g first, c.stepsize_controller.init f c.t0 c.t1 c.y0 c.dt0 = .ok first →
      (∀ s, diffeqLoop ctol c f g first = some (.ok s) → ∃ p, s.saved.getLast? = some p ∧
        diffeqLoop ctol d f g first = some (.ok { s with saved := [p] })) ∧
      (∀ e, diffeqLoop ctol c f g first = some (.error e) →
        diffeqLoop ctol d f g first = some (.error e)) := by
    intro f g first hi
    have key : ∀ res, diffeqLoop ctol c f g first = some res → ∃ k,
        (∀ j < k, running c.t1 (coreAt ctol c f g first j) = true) ∧
        res = (if running c.t1 (coreAt ctol c f g first k) then .error .maxSteps
          else .ok { saved := (keptRev (c.t0, c.y0) (coreAt ctol c f g first) k).reverse,
                     event := (coreAt ctol c f g first k).event, num_steps := k }) ∧
        diffeqLoop ctol d f g first = some
          (if running c.t1 (coreAt ctol c f g first k) then .error .maxSteps
            else .ok { saved := [((coreAt ctol c f g first k).tprev, (coreAt ctol c f g first k).y)],
                       event := (coreAt ctol c f g first k).event, num_steps := k }) := by
      intro res hres
      obtain ⟨k, hj, hk, hr⟩ := diffeqLoop_some _ _ _ _ _ hres
      refine ⟨k, (loop_facts _ _ _ _ _ hj).1, ?_, ?_⟩
      · rw [hr]
        simp only [show c.saveat.t0 = true from rfl, show c.saveat.t1 = false from rfl,
          show c.saveat.ts = [] from rfl, if_true, Bool.false_eq_true, if_false, List.append_nil,
          savesAt_steps _ _ c.saveat rfl]
      · rw [diffeqLoop_of (k := k) ctol d f g first (fun j hj' => by rw [hd]; exact hj j hj')
          (by rw [hd]; exact hk)]
        simp only [show d.saveat.t0 = false from rfl, show d.saveat.t1 = true from rfl,
          show d.saveat.ts = [] from rfl, if_true, Bool.false_eq_true, if_false, List.nil_append,
          savesAt_none _ d.saveat rfl, hd]
        rfl
    refine ⟨fun s hs => ?_, fun e he => ?_⟩
    · obtain ⟨k, hr, h1, h2⟩ := key _ hs
      by_cases hrun : running c.t1 (coreAt ctol c f g first k) = true
      · rw [if_pos hrun] at h1; cases h1
      · rw [if_neg hrun, Except.ok.injEq] at h1
        rw [if_neg hrun] at h2
        obtain ⟨B, hB⟩ := (trace_inv (g := g) hc hv h01' hi k hr).2.1
        refine ⟨((coreAt ctol c f g first k).tprev, (coreAt ctol c f g first k).y), ?_, ?_⟩
        · rw [h1]; simp only [hB, List.reverse_cons, List.getLast?_append]; rfl
        · rw [h2, h1]
    · obtain ⟨k, hr, h1, h2⟩ := key _ he
      by_cases hrun : running c.t1 (coreAt ctol c f g first k) = true
      · rw [if_pos hrun] at h1 h2; rw [h2, h1]
      · rw [if_neg hrun] at h1; cases h1
  have hts : tsOk c.t0 c.t1 c.saveat.ts = true := rfl
  have hu : ∀ c' : Call ℝ Y σ γ, c'.terms = c.terms → c'.args = c.args → c'.event = c.event →
      c'.stepsize_controller = c.stepsize_controller → c'.t0 = c.t0 → c'.t1 = c.t1 → c'.y0 = c.y0 →
      c'.dt0 = c.dt0 → c'.saveat.ts = [] → c'.max_steps = some 4096 →
      diffeqsolve ctol c' = match traceTerms c with
        | .error e => some (.error (.py e))
        | .ok f => match traceEvent c with
          | .error e => some (.error (.py e))
          | .ok g => match c.stepsize_controller.init f c.t0 c.t1 c.y0 c.dt0 with
            | .error e => some (.error e)
            | .ok first => diffeqLoop ctol c' f g first := by
    intro c' a1 a2 a3 a4 a5 a6 a7 a8 a9 a10
    have b1 : traceTerms c' = traceTerms c := by simp only [traceTerms, a1, a2, a5, a7]
    have b2 : traceEvent c' = traceEvent c := by simp only [traceEvent, a2, a3, a5, a7]
    unfold diffeqsolve
    rw [b1, b2, a4, a5, a6, a7, a8, a9, a10]
    rw [show tsOk c.t0 c.t1 ([] : List ℝ) = true from rfl]
    simp only [Option.isNone_some, Bool.and_false, Bool.false_eq_true, if_false, Bool.not_true]
    rcases traceTerms c with e | f
    · rfl
    rcases traceEvent c with e | g
    · rfl
    dsimp only
    rcases c.stepsize_controller.init f c.t0 c.t1 c.y0 c.dt0 with e | first <;> rfl
  have hA : adaptive_steps ctol o x0 t1 solver ctrl = diffeqsolve ctol c := rfl
  have hF : to_final ctol o x0 t1 solver ctrl = diffeqsolve ctol d := rfl
  rw [hA, hF, hu c rfl rfl rfl rfl rfl rfl rfl rfl rfl rfl, hu d rfl rfl rfl rfl rfl rfl rfl rfl rfl rfl]
  rcases traceTerms c with e | f
  · simp
  rcases traceEvent c with e | g
  · simp
  dsimp only
  rcases hI : c.stepsize_controller.init f c.t0 c.t1 c.y0 c.dt0 with e | first
  · simp
  · exact hloop f g first hI

/-- A controller in the manner of `PIDController`: a step is kept when the error norm is below 1, and the
next step is the last one times a factor clipped to `[0.2, 10]` (`[1, 10]` after a kept step). The error
norm, the factor before clipping and the first step are arbitrary. -/
noncomputable def pidLike (norm : Y → Y → Y → ℝ) (factor : ℝ → γ → ℝ) (mem : γ → ℝ → γ) (g0 : γ)
    (h0 : (ℝ → Y → Y) → ℝ → Y → ℝ) : Controller ℝ Y γ where
  init f t0 _ y0 dt0 := .ok (t0 + (match dt0 with | some h => h | none => max (h0 f t0 y0) (1 / 1000)), g0)
  adapt t0 t1 y0 y1 err s :=
    let e := norm y0 y1 err
    let keep := decide (e < 1)
    let fac := max (if keep then 1 else 1 / 5) (min (factor e s) 10)
    let n0 := if keep then t1 else t0
    (keep, n0, n0 + fac * (t1 - t0), mem s e)

/-- Such controllers meet the contract assumed above: it is not vacuous. -/
theorem pidLike_valid (norm : Y → Y → Y → ℝ) (factor : ℝ → γ → ℝ) (mem : γ → ℝ → γ) (g0 : γ)
    (h0 : (ℝ → Y → Y) → ℝ → Y → ℝ) :
    (pidLike norm factor mem g0 h0).Valid none fun _ => True where
  init := by
    rintro f t0 t1 y0 r h -
    simp only [pidLike, Except.ok.injEq] at h
    subst h
    have : (0 : ℝ) < max (h0 f t0 y0) (1 / 1000) := lt_of_lt_of_le (by norm_num) (le_max_right _ _)
    exact ⟨by simpa using this, trivial⟩
  keep := by
    intro t0 t1 y0 y1 err s h _ hk
    simp only [pidLike] at hk ⊢
    simp only [hk, if_true, true_and]
    have : (0 : ℝ) < max 1 (min (factor (norm y0 y1 err) s) 10) := lt_of_lt_of_le one_pos (le_max_left _ _)
    have := mul_pos this (sub_pos.2 h)
    linarith
  reject := by
    intro t0 t1 y0 y1 err s h _ hk
    simp only [pidLike] at hk ⊢
    simp only [hk, Bool.false_eq_true, if_false, true_and]
    have : (0 : ℝ) < max (1 / 5) (min (factor (norm y0 y1 err) s) 10) :=
      lt_of_lt_of_le (by norm_num) (le_max_left _ _)
    have := mul_pos this (sub_pos.2 h)
    linarith
  pres := fun _ _ => trivial

/-- Euler's method, to run examples with. -/
noncomputable def euler : Solver ℝ ℝ Unit where
  init _ _ _ := ()
  step f t0 t1 y _ := (y + (t1 - t0) * f t0 y, fun t => y + (t - t0) * f t0 y, 0, ())

/-- `y' = 1` from `y = 5` over `[0, 1]` with steps `0.4`: the run completes, at times `0, 0.4, 0.8, 1`. -/
example : ∃ s, fixed_steps (1 / 10 ^ 6) { terms := fun _ _ _ => .ok (1 : ℝ), args := defaultArgs } (5 : ℝ) 1
      (0.4 : ℝ) euler (some 4096) = some (.ok s) ∧ s.saved.map Prod.fst = [0, 0.4, 0.8, 1] := by
  have hc : (0 : ℝ) ≤ 1 / 10 ^ 6 := by norm_num
  obtain ⟨s, hs, he⟩ := C45_fixed_completes (ctol := 1 / 10 ^ 6) (t1 := 1) (dt := 0.4) (m := 4096)
    (x0 := (5 : ℝ)) (o := { terms := fun _ _ _ => .ok (1 : ℝ), args := defaultArgs }) (solver := euler)
    hc one_pos (by norm_num) rfl rfl (by norm_num)
  refine ⟨s, hs, ?_⟩
  obtain ⟨last, h1, -, h2⟩ := C45_fixed_times hc one_pos (by norm_num) hs
  obtain ⟨h3, h4, h5, h6⟩ := h2 he
  have hn : s.num_steps = 3 := by
    have a : (s.num_steps : ℝ) < 4 := by linarith
    have b : (2 : ℝ) < s.num_steps := by linarith
    have a' : s.num_steps < 4 := by exact_mod_cast a
    have b' : 2 < s.num_steps := by exact_mod_cast b
    omega
  rw [h1, hn, h3]
  norm_num [List.range_succ]

end Adx
