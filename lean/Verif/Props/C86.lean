import Verif.Props.C73
import Verif.Props.C46
import Verif.Props.C36
import Verif.Props.C54
import Verif.Props.C74

/-! # C86: the altitude event and the true trajectory

`radius_islow` is only evaluated at the ends of the steps. With short steps a run with this event ends by it exactly when the
true trajectory dips below `rmin`, and at the right time; for a bound orbit flown for a revolution this is what
`rp_islower_rmin` says. With long steps a dip is missed. -/

namespace Adx
open V3 Spec

/-- The event `radius_islow` on states `(r, v)`. -/
noncomputable def radEvent : Event ℝ (V3 ℝ × V3 ℝ) := fun t y args =>
  radius_islow t ⟨y.1, [y.2.x, y.2.y, y.2.z]⟩ args

theorem traceEvent_rad {σ γ : Type} {c : Call ℝ (V3 ℝ × V3 ℝ) σ γ} {rmin : ℝ} (he : c.event = some radEvent)
    (h : c.args "rmin" = some rmin) :
    traceEvent c = .ok (some fun _ y => V3.norm y.1 - rmin) := by
  simp only [traceEvent, he, radEvent, bind, Except.bind, radius_islow_ok h, pure, Except.pure]

/-- What a step-saving run with this event looks like (`RadiusContract` for pairs). -/
def RadContract (rmin : ℝ) (s : Sol ℝ (V3 ℝ × V3 ℝ)) : Prop :=
  (s.event = false → ∀ p ∈ s.saved, rmin < V3.norm p.2.1) ∧
  (s.event = true → ∃ l q, s.saved = l ++ [q] ∧ (∀ p ∈ l, rmin < V3.norm p.2.1) ∧ V3.norm q.2.1 ≤ rmin)

theorem rad_run {σ γ : Type} {c : Call ℝ (V3 ℝ × V3 ℝ) σ γ} {P : γ → Prop} {ctol : ℝ} {s : Sol ℝ (V3 ℝ × V3 ℝ)} {rmin : ℝ}
    (hs : c.saveat.steps = true) (h0 : c.saveat.t0 = true) (h1 : c.saveat.t1 = false) (hts : c.saveat.ts = [])
    (hc : 0 ≤ ctol) (h01 : c.t0 < c.t1) (hv : c.stepsize_controller.Valid c.dt0 P)
    (he : c.event = some radEvent) (hrm : c.args "rmin" = some rmin)
    (hstart : rmin < V3.norm c.y0.1) (hr : diffeqsolve ctol c = some (.ok s)) : RadContract rmin s := by
  obtain ⟨a, b⟩ := event_run hs h0 h1 hts hc h01 hv (traceEvent_rad he hrm) hr
  have hpos : sgn (V3.norm c.y0.1 - rmin) = 1 := sgn_real_pos.2 (by linarith)
  simp only [hpos, sgn_real_pos, sub_pos] at a b
  refine ⟨a, fun h => ?_⟩
  obtain ⟨l, q, e1, -, e3, e4⟩ := b h
  refine ⟨l, q, e1, e3, ?_⟩
  rw [ne_eq, sgn_real_pos, sub_pos, not_lt] at e4
  exact e4

/-- Without event-free hypothesis: a fixed-step run with enough iterations comes back with a solution. -/
theorem fixed_returns {Y σ : Type} {o : OrbDynx ℝ Y} {x0 : Y} {t1 dt ctol : ℝ} {solver : Solver ℝ Y σ} {m : ℕ} (hc : 0 ≤ ctol)
    (h01 : 0 < t1) (hdt : 0 < dt) {v : Y} (hf : o.terms 0 x0 o.args = .ok v) {e : ℝ → Y → Args ℝ → Except PyErr ℝ}
    (he : o.event = some e) {w : ℝ} (hw : e 0 x0 o.args = .ok w) (hm : t1 ≤ m * dt) :
    ∃ s, fixed_steps ctol o x0 t1 dt solver (some m) = some (.ok s) := by
  set c := fixedCall o x0 t1 dt (some m) solver with hcdef
  have h0 : c.t0 = 0 := Nat.cast_zero
  obtain ⟨f, hf'⟩ : ∃ f, traceTerms c = .ok f := by
    simp only [traceTerms, bind, Except.bind, pure, Except.pure]
    rw [show c.terms c.t0 c.y0 c.args = .ok v by rw [h0]; exact hf]
    exact ⟨_, rfl⟩
  obtain ⟨g, hg⟩ : ∃ g, traceEvent c = .ok g := by
    simp only [traceEvent, show c.event = some e from he, bind, Except.bind, pure, Except.pure]
    rw [show e c.t0 c.y0 c.args = .ok w by rw [h0]; exact hw]
    exact ⟨_, rfl⟩
  have hi : c.stepsize_controller.init f c.t0 c.t1 c.y0 c.dt0 = .ok (0 + dt, dt) := by
    simp [hcdef, fixedCall, constantStepSize]
  have hsolve : fixed_steps ctol o x0 t1 dt solver (some m) = diffeqLoop ctol c f g (0 + dt, dt) := by
    change diffeqsolve ctol c = _
    unfold diffeqsolve
    simp only [hf', hg, hi]
    simp [hcdef, fixedCall, tsOk]
  obtain ⟨res, hres⟩ := Option.isSome_iff_exists.1
    (diffeqLoop_isSome ctol c f g (0 + dt, dt) (m := m) rfl)
  obtain ⟨k, hj, hend, hr⟩ := diffeqLoop_some _ _ _ _ _ hres
  obtain ⟨hrun, -⟩ := loop_facts _ _ _ _ _ hj
  obtain ⟨h1, -, -, -⟩ := fixed_core (o := o) (x0 := x0) (solver := solver) (ms := some m) (f := f)
    (g := g) hdt hc h01 k hrun
  by_cases hrk : running c.t1 (coreAt ctol c f g (0 + dt, dt) k) = true
  · exfalso
    have hkm : m ≤ k := by
      rw [show c.max_steps = some m from rfl] at hend
      simp only [loopCond, hrk, Bool.true_and, num_steps_coreAt] at hend
      simpa using hend
    simp only [running, lt_real, Bool.and_eq_true, decide_eq_true_eq] at hrk
    have hkm' : (m : ℝ) * dt ≤ k * dt := by gcongr
    have : (coreAt ctol c f g (0 + dt, dt) k).tprev < t1 := hrk.1
    rcases h1 with h1 | h1
    · have h1' : (coreAt ctol c f g (0 + dt, dt) k).tprev = k * dt := h1
      linarith
    · have h1' : (coreAt ctol c f g (0 + dt, dt) k).tprev = t1 := h1
      linarith
  · rw [if_neg hrk] at hr
    exact ⟨_, by rw [hsolve, hres, hr]⟩

theorem norm_le_two {a : V3 ℝ} {δ : ℝ} (hx : |a.x| ≤ δ) (hy : |a.y| ≤ δ) (hz : |a.z| ≤ δ) : V3.norm a ≤ 2 * δ := by
  have h0 : 0 ≤ δ := (abs_nonneg _).trans hx
  have e : V3.norm a ^ 2 = a.x ^ 2 + a.y ^ 2 + a.z ^ 2 := by rw [V3.norm_sq]; simp only [V3.dot]; ring
  have h1 := sq_le_sq' (neg_le_of_abs_le hx) (le_of_abs_le hx)
  have h2 := sq_le_sq' (neg_le_of_abs_le hy) (le_of_abs_le hy)
  have h3 := sq_le_sq' (neg_le_of_abs_le hz) (le_of_abs_le hz)
  exact abs_le_of_sq_le_sq' (by nlinarith) (by linarith) |>.2

theorem norm_tri (a b : V3 ℝ) : V3.norm a ≤ V3.norm b + V3.norm (a - b) := by
  have h := V3.abs_dot_le (a := b) (b := a - b)
  have hb := V3.norm_nonneg b
  have hd := V3.norm_nonneg (a - b)
  have e : V3.norm a ^ 2 = V3.norm b ^ 2 + 2 * V3.dot b (a - b) + V3.norm (a - b) ^ 2 := by
    simp only [V3.norm_sq, V3.dot, V3.sub_x, V3.sub_y, V3.sub_z]; ring
  exact abs_le_of_sq_le_sq' (by nlinarith [le_abs_self (V3.dot b (a - b))]) (by linarith) |>.2

/-- Near states have nearly the same radius. -/
theorem near_radius {δ : ℝ} {p q : V3 ℝ × V3 ℝ} (h : Near δ p q) : |V3.norm p.1 - V3.norm q.1| ≤ 2 * δ := by
  obtain ⟨hx, hy, hz, -⟩ := h
  have h1 := norm_le_two (a := p.1 - q.1) (δ := δ) (by simpa using hx) (by simpa using hy) (by simpa using hz)
  have h2 := norm_le_two (a := q.1 - p.1) (δ := δ) (by simpa [abs_sub_comm] using hx) (by simpa [abs_sub_comm] using hy)
    (by simpa [abs_sub_comm] using hz)
  rw [abs_le]
  constructor <;> linarith [norm_tri p.1 q.1, norm_tri q.1 p.1]

/-- A chain with gaps up to `H` has an entry at most `H` after any time it covers. -/
theorem chain_reach {Y : Type} {H τ : ℝ} (hH : 0 ≤ H) : ∀ (l : List (ℝ × Y)) (p0 : ℝ × Y), p0.1 ≤ τ →
    (p0 :: l).IsChain (fun p q => q.1 - p.1 ≤ H) → ∀ q ∈ p0 :: l, τ ≤ q.1 → ∃ p ∈ p0 :: l, τ ≤ p.1 ∧ p.1 ≤ τ + H
  | [], p0, h0, _, q, hq, hτ => ⟨p0, by simp, by rw [List.mem_singleton] at hq; rw [← hq]; exact hτ, by linarith⟩
  | a :: l, p0, h0, hch, q, hq, hτ => by
    rw [List.isChain_cons_cons] at hch
    rcases le_total τ a.1 with ha | ha
    · exact ⟨a, by simp, ha, by linarith [hch.1]⟩
    · rcases List.mem_cons.1 hq with rfl | hq
      · exact ⟨q, by simp, hτ, by linarith⟩
      · obtain ⟨p, hp, h⟩ := chain_reach hH l a ha hch.2 q hq hτ
        exact ⟨p, List.mem_cons_of_mem _ hp, h⟩

/-- What a run with the event has to do with a radius `ρ` it follows up to `B`. -/
theorem event_logic {s : Sol ℝ (V3 ℝ × V3 ℝ)} {ρ : ℝ → ℝ} {T B H rmin : ℝ} (hH : 0 ≤ H)
    (hclose : ∀ p ∈ s.saved, 0 ≤ p.1 ∧ p.1 ≤ T ∧ |V3.norm p.2.1 - ρ p.1| ≤ B)
    (hch : s.saved.IsChain (fun p q => q.1 - p.1 ≤ H)) (h0 : ∃ x0 rest, s.saved = (0, x0) :: rest)
    (hlast : s.event = false → ∃ y, s.saved.getLast? = some (T, y)) (hrad : RadContract rmin s) :
    ((∀ t ∈ Set.Icc 0 T, rmin + B < ρ t) → s.event = false) ∧
    (∀ σ τ, 0 ≤ τ → τ ≤ T → (∀ t ∈ Set.Icc 0 σ, rmin + B < ρ t) → (∀ t ∈ Set.Icc τ T, t ≤ τ + H → ρ t < rmin - B) →
      ∃ q, s.event = true ∧ s.saved.getLast? = some q ∧ σ < q.1 ∧ q.1 ≤ τ + H) := by
  obtain ⟨c1, c2⟩ := hrad
  refine ⟨fun hcl => ?_, fun σ τ h0τ hτT hσ hτ => ?_⟩
  · by_contra hev
    obtain ⟨l, q, e1, -, e3⟩ := c2 (by simpa using hev)
    obtain ⟨a, b, c⟩ := hclose q (by rw [e1]; simp)
    have := hcl q.1 ⟨a, b⟩
    linarith [(abs_le.1 c).1]
  · obtain ⟨x0, rest, e0⟩ := h0
    have low : ∀ p ∈ s.saved, τ ≤ p.1 → p.1 ≤ τ + H → V3.norm p.2.1 < rmin := by
      intro p hp h1 h2
      obtain ⟨a, b, c⟩ := hclose p hp
      have := hτ p.1 ⟨h1, b⟩ h2
      linarith [(abs_le.1 c).2]
    have reach : ∀ q ∈ s.saved, τ ≤ q.1 → ∃ p ∈ s.saved, τ ≤ p.1 ∧ p.1 ≤ τ + H := by
      intro q hq hle
      rw [e0] at hch hq ⊢
      exact chain_reach hH rest (0, x0) h0τ hch q hq hle
    have hev : s.event = true := by
      by_contra hev
      have hev' : s.event = false := by simpa using hev
      obtain ⟨y, hy⟩ := hlast hev'
      obtain ⟨p, hp, h1, h2⟩ := reach (T, y) (List.mem_of_getLast? hy) hτT
      linarith [low p hp h1 h2, c1 hev' p hp]
    obtain ⟨l, q, e1, e2, e3⟩ := c2 hev
    have hq : q ∈ s.saved := by rw [e1]; simp
    obtain ⟨a, b, c⟩ := hclose q hq
    refine ⟨q, hev, by rw [e1]; simp, ?_, ?_⟩
    · by_contra hle
      have := hσ q.1 ⟨a, not_lt.1 hle⟩
      linarith [(abs_le.1 c).1]
    · by_contra hgt
      push Not at hgt
      obtain ⟨p, hp, h1, h2⟩ := reach q hq (by linarith)
      have hpl : p ∈ l := by
        rw [e1, List.mem_append, List.mem_singleton] at hp
        rcases hp with hp | rfl
        · exact hp
        · linarith
      linarith [low p hp h1 h2, e2 p hpl]

theorem clear_margin {ρ : ℝ → ℝ} {σ rmin : ℝ} (h0 : 0 ≤ σ) (hc : ContinuousOn ρ (Set.Icc 0 σ))
    (h : ∀ t ∈ Set.Icc 0 σ, rmin < ρ t) : ∃ κ > 0, ∀ t ∈ Set.Icc 0 σ, rmin + κ ≤ ρ t := by
  obtain ⟨t0, ht0, hmin⟩ := isCompact_Icc.exists_isMinOn (Set.nonempty_Icc.2 h0) hc
  exact ⟨ρ t0 - rmin, by linarith [h t0 ht0], fun t ht => by
    have : ρ t0 ≤ ρ t := hmin ht
    linarith⟩

theorem dip_margin {ρ : ℝ → ℝ} {τ T rmin : ℝ} (hτ : τ ∈ Set.Icc 0 T) (hc : ContinuousOn ρ (Set.Icc 0 T)) (h : ρ τ < rmin) :
    ∃ κ > 0, ∀ t ∈ Set.Icc τ T, t ≤ τ + κ → ρ t < rmin - κ := by
  have hm : ρ τ < (ρ τ + rmin) / 2 := by linarith
  have := (hc τ hτ).eventually (gt_mem_nhds hm)
  rw [eventually_nhdsWithin_iff, Metric.eventually_nhds_iff] at this
  obtain ⟨ε, hε, hball⟩ := this
  refine ⟨min (ε / 2) ((rmin - ρ τ) / 2), lt_min (by linarith) (by linarith), fun t ht hle => ?_⟩
  have h1 := min_le_left (ε / 2) ((rmin - ρ τ) / 2)
  have h2 := min_le_right (ε / 2) ((rmin - ρ τ) / 2)
  have := hball (y := t) (by rw [Real.dist_eq, abs_of_nonneg (by linarith [ht.1])]; linarith) ⟨hτ.1.trans ht.1, ht.2⟩
  linarith

section
variable {terms : ℝ → V3 ℝ × V3 ℝ → Args ℝ → Except PyErr (V3 ℝ × V3 ℝ)} {args : Args ℝ} {r v : ℝ → V3 ℝ} {T A C h0 rmin : ℝ}

/-- Everything `event_logic` asks of a run, from `StepsClose`. -/
theorem run_facts (h : StepsClose terms args r v T A C h0) (hC : 0 ≤ C) (hT : 0 < T) (hrm : args "rmin" = some rmin)
    {o : OrbDynx ℝ (V3 ℝ × V3 ℝ)} {tb : Tableau ℝ} {interp : ℝ → ℝ → V3 ℝ × V3 ℝ → V3 ℝ × V3 ℝ → ℝ → V3 ℝ × V3 ℝ}
    {err : ℝ → ℝ → V3 ℝ × V3 ℝ → V3 ℝ × V3 ℝ → V3 ℝ × V3 ℝ} {β ctol η : ℝ} {x0 : V3 ℝ × V3 ℝ} {ms : Option ℕ}
    {s : Sol ℝ (V3 ℝ × V3 ℝ)} (ho : o.terms = terms) (hoa : o.args = args) (he : o.event = some radEvent)
    (hne : tb.rows ≠ []) (hR : RowsOk A β tb.rows 1) (hc : 0 ≤ ctol) (hx : Near η x0 (r 0, v 0))
    (hstart : rmin < V3.norm x0.1) :
    (∀ dt d, 0 < dt → dt + ctol + |β - 1| + η ≤ d → d ≤ h0 →
      fixed_steps ctol o x0 T dt (rkSolver tb interp err) ms = some (.ok s) →
      (∀ p ∈ s.saved, 0 ≤ p.1 ∧ p.1 ≤ T ∧ |V3.norm p.2.1 - V3.norm (r p.1)| ≤ 2 * (C * d)) ∧
      s.saved.IsChain (fun p q => q.1 - p.1 ≤ dt + ctol) ∧ (∃ x0 rest, s.saved = (0, x0) :: rest) ∧
      (s.event = false → ∃ y, s.saved.getLast? = some (T, y)) ∧ RadContract rmin s) ∧
    (∀ (γ : Type) (ctrl : Controller ℝ (V3 ℝ × V3 ℝ) γ) (P : γ → Prop) (H d : ℝ), ctrl.Valid none P → 0 ≤ H →
      H + |β - 1| + η ≤ d → d ≤ h0 →
      adaptive_steps ctol o x0 T (rkSolver tb interp err) ctrl ms = some (.ok s) →
      s.saved.IsChain (fun p q => q.1 - p.1 ≤ H) →
      (∀ p ∈ s.saved, 0 ≤ p.1 ∧ p.1 ≤ T ∧ |V3.norm p.2.1 - V3.norm (r p.1)| ≤ 2 * (C * d)) ∧
      (∃ x0 rest, s.saved = (0, x0) :: rest) ∧
      (s.event = false → ∃ y, s.saved.getLast? = some (T, y)) ∧ RadContract rmin s) := by
  obtain ⟨hf, ha⟩ := h o tb interp err β ctol η x0 ms s ho hoa hne hR hc hx
  have h01' : ((0 : ℕ) : ℝ) < T := by rw [Nat.cast_zero]; exact hT
  refine ⟨fun dt d hdt hd hd0 hrun => ?_, fun γ ctrl P H d hv hH hd hd0 hrun hch => ?_⟩
  · have hcl := hf dt hdt (hd.trans hd0) hrun
    obtain ⟨rest, e0, -, -, -, -, -, hl⟩ := C45_fixed hc hT hdt hrun
    refine ⟨fun p hp => ⟨(hcl p hp).1, (hcl p hp).2.1, ?_⟩, fixed_chain hc hT hdt hrun, ⟨_, _, e0⟩, hl, ?_⟩
    · exact (near_radius (hcl p hp).2.2).trans (by gcongr)
    · exact rad_run (c := fixedCall o x0 T dt ms (rkSolver tb interp err)) rfl rfl rfl rfl hc h01' (constant_valid hdt)
        he (by rw [← hoa] at hrm; exact hrm) hstart hrun
  · have hcl := ha γ ctrl P H hv hH (hd.trans hd0) hrun hch
    obtain ⟨rest, e0, -, -, -, -, -, hl⟩ := C45_adaptive hc hT hv hrun
    refine ⟨fun p hp => ⟨(hcl p hp).1, (hcl p hp).2.1, ?_⟩, ⟨_, _, e0⟩, hl, ?_⟩
    · exact (near_radius (hcl p hp).2.2).trans (by gcongr)
    · exact rad_run (c := adaptiveCall o x0 T ms (rkSolver tb interp err) ctrl) rfl rfl rfl rfl hc h01' hv
        he (by rw [← hoa] at hrm; exact hrm) hstart hrun

/-- The set-up of a run with the event: vector field, parameters, method, initial state near the trajectory. -/
structure EventRun (terms : ℝ → V3 ℝ × V3 ℝ → Args ℝ → Except PyErr (V3 ℝ × V3 ℝ)) (args : Args ℝ) (r v : ℝ → V3 ℝ) (A : ℝ)
    (o : OrbDynx ℝ (V3 ℝ × V3 ℝ)) (tb : Tableau ℝ) (β ctol η : ℝ) (x0 : V3 ℝ × V3 ℝ) : Prop where
  /-- vector field -/
  terms : o.terms = terms
  /-- parameters -/
  args : o.args = args
  /-- event -/
  event : o.event = some radEvent
  /-- the tableau is not empty -/
  rows : tb.rows ≠ []
  /-- bounded coefficients, weights of sum `β` -/
  ok : RowsOk A β tb.rows 1
  /-- diffrax's tolerance -/
  ctol : 0 ≤ ctol
  /-- initial state -/
  near : Near η x0 (r 0, v 0)

/-- C86: if the trajectory stays above `rmin` on `[0, T]`, no run with short enough steps ends by the event. -/
theorem C86_quiet (h : StepsClose terms args r v T A C h0) (hC : 0 ≤ C) (hh0 : 0 < h0) (hT : 0 < T)
    (hrm : args "rmin" = some rmin) (hcont : ContinuousOn (fun t => V3.norm (r t)) (Set.Icc 0 T))
    (hclear : ∀ t ∈ Set.Icc 0 T, rmin < V3.norm (r t)) :
    ∃ δ > 0, ∀ (o : OrbDynx ℝ (V3 ℝ × V3 ℝ)) (tb : Tableau ℝ) (interp : ℝ → ℝ → V3 ℝ × V3 ℝ → V3 ℝ × V3 ℝ → ℝ → V3 ℝ × V3 ℝ)
      (err : ℝ → ℝ → V3 ℝ × V3 ℝ → V3 ℝ × V3 ℝ → V3 ℝ × V3 ℝ) (β ctol η : ℝ) (x0 : V3 ℝ × V3 ℝ) (ms : Option ℕ)
      (s : Sol ℝ (V3 ℝ × V3 ℝ)), EventRun terms args r v A o tb β ctol η x0 →
      (∀ dt, 0 < dt → dt + ctol + |β - 1| + η ≤ δ →
        fixed_steps ctol o x0 T dt (rkSolver tb interp err) ms = some (.ok s) → s.event = false) ∧
      (∀ (γ : Type) (ctrl : Controller ℝ (V3 ℝ × V3 ℝ) γ) (P : γ → Prop) (H : ℝ), ctrl.Valid none P → 0 ≤ H →
        H + |β - 1| + η ≤ δ → adaptive_steps ctol o x0 T (rkSolver tb interp err) ctrl ms = some (.ok s) →
        s.saved.IsChain (fun p q => q.1 - p.1 ≤ H) → s.event = false) := by
  obtain ⟨κ, hκ, hm⟩ := clear_margin hT.le hcont hclear
  refine ⟨min h0 (κ / (2 * C + 3)), by positivity, fun o tb interp err β ctol η x0 ms s hr => ?_⟩
  set d := min h0 (κ / (2 * C + 3)) with hd
  have hd0 : d ≤ h0 := min_le_left _ _
  have hdκ : d * (2 * C + 3) ≤ κ := (le_div_iff₀ (by positivity)).1 (min_le_right _ _)
  have hdpos : 0 < d := by positivity
  have hB : 2 * (C * d) < κ := by nlinarith
  have hη0 : 0 ≤ η := (abs_nonneg _).trans hr.near.1
  have hst : η ≤ d → rmin < V3.norm x0.1 := fun hη => by
    have h1 := near_radius hr.near
    have h2 := hm 0 ⟨le_rfl, hT.le⟩
    simp only at h1
    nlinarith [(abs_le.1 h1).1]
  refine ⟨fun dt hdt hle hrun => ?_, fun γ ctrl P H hv hH hle hrun hch => ?_⟩
  · obtain ⟨f1, f2, f3, f4, f5⟩ := (run_facts h hC hT hrm (interp := interp) (err := err) hr.terms hr.args hr.event hr.rows hr.ok
      hr.ctol hr.near (hst (by linarith [hr.ctol, abs_nonneg (β - 1)]))).1 dt d hdt hle hd0 hrun
    exact (event_logic (ρ := fun t => V3.norm (r t)) (by linarith [hr.ctol]) f1 f2 f3 f4 f5).1 fun t ht => by linarith [hm t ht]
  · obtain ⟨f1, f3, f4, f5⟩ := (run_facts h hC hT hrm (interp := interp) (err := err) hr.terms hr.args hr.event hr.rows hr.ok
      hr.ctol hr.near (hst (by linarith [abs_nonneg (β - 1)]))).2 γ ctrl P H d hv hH hle hd0 hrun hch
    exact (event_logic (ρ := fun t => V3.norm (r t)) hH f1 hch f3 f4 f5).1 fun t ht => by linarith [hm t ht]

/-- C86: if the trajectory is above `rmin` up to `σ` and below it at `τ`, every run with short enough steps ends by the event, after
`σ` and not more than a step after `τ`. -/
theorem C86_alarm (h : StepsClose terms args r v T A C h0) (hC : 0 ≤ C) (hh0 : 0 < h0) (hT : 0 < T)
    (hrm : args "rmin" = some rmin) (hcont : ContinuousOn (fun t => V3.norm (r t)) (Set.Icc 0 T)) {σ τ : ℝ} (hσ : 0 ≤ σ)
    (hσT : σ ≤ T) (hclear : ∀ t ∈ Set.Icc 0 σ, rmin < V3.norm (r t)) (hτ : τ ∈ Set.Icc 0 T) (hdip : V3.norm (r τ) < rmin) :
    ∃ δ > 0, ∀ (o : OrbDynx ℝ (V3 ℝ × V3 ℝ)) (tb : Tableau ℝ) (interp : ℝ → ℝ → V3 ℝ × V3 ℝ → V3 ℝ × V3 ℝ → ℝ → V3 ℝ × V3 ℝ)
      (err : ℝ → ℝ → V3 ℝ × V3 ℝ → V3 ℝ × V3 ℝ → V3 ℝ × V3 ℝ) (β ctol η : ℝ) (x0 : V3 ℝ × V3 ℝ) (ms : Option ℕ)
      (s : Sol ℝ (V3 ℝ × V3 ℝ)), EventRun terms args r v A o tb β ctol η x0 →
      (∀ dt, 0 < dt → dt + ctol + |β - 1| + η ≤ δ →
        fixed_steps ctol o x0 T dt (rkSolver tb interp err) ms = some (.ok s) →
        ∃ q, s.event = true ∧ s.saved.getLast? = some q ∧ σ < q.1 ∧ q.1 ≤ τ + (dt + ctol)) ∧
      (∀ (γ : Type) (ctrl : Controller ℝ (V3 ℝ × V3 ℝ) γ) (P : γ → Prop) (H : ℝ), ctrl.Valid none P → 0 ≤ H →
        H + |β - 1| + η ≤ δ → adaptive_steps ctol o x0 T (rkSolver tb interp err) ctrl ms = some (.ok s) →
        s.saved.IsChain (fun p q => q.1 - p.1 ≤ H) →
        ∃ q, s.event = true ∧ s.saved.getLast? = some q ∧ σ < q.1 ∧ q.1 ≤ τ + H) := by
  obtain ⟨κ1, hκ1, hm⟩ := clear_margin hσ (hcont.mono (Set.Icc_subset_Icc_right hσT)) hclear
  obtain ⟨κ2, hκ2, hm2⟩ := dip_margin hτ hcont hdip
  set κ := min κ1 κ2 with hκ'
  have hκ : 0 < κ := lt_min hκ1 hκ2
  have k1 : κ ≤ κ1 := min_le_left _ _
  have k2 : κ ≤ κ2 := min_le_right _ _
  refine ⟨min h0 (κ / (2 * C + 3)), by positivity, fun o tb interp err β ctol η x0 ms s hr => ?_⟩
  set d := min h0 (κ / (2 * C + 3)) with hd
  have hd0 : d ≤ h0 := min_le_left _ _
  have hdκ : d * (2 * C + 3) ≤ κ := (le_div_iff₀ (by positivity)).1 (min_le_right _ _)
  have hdpos : 0 < d := by positivity
  have hB : 2 * (C * d) < κ := by nlinarith
  have hd1 : d ≤ κ := by nlinarith [mul_nonneg hC hdpos.le]
  have hη0 : 0 ≤ η := (abs_nonneg _).trans hr.near.1
  have hb := abs_nonneg (β - 1)
  have hct := hr.ctol
  have hst : η ≤ d → rmin < V3.norm x0.1 := fun hη => by
    have h1 := near_radius hr.near
    have h2 := hm 0 ⟨le_rfl, hσ⟩
    simp only at h1
    nlinarith [(abs_le.1 h1).1]
  refine ⟨fun dt hdt hle hrun => ?_, fun γ ctrl P H hv hH hle hrun hch => ?_⟩
  · obtain ⟨f1, f2, f3, f4, f5⟩ := (run_facts h hC hT hrm (interp := interp) (err := err) hr.terms hr.args hr.event hr.rows hr.ok
      hr.ctol hr.near (hst (by linarith))).1 dt d hdt hle hd0 hrun
    exact (event_logic (ρ := fun t => V3.norm (r t)) (by linarith) f1 f2 f3 f4 f5).2 σ τ hτ.1 hτ.2 (fun t ht => by linarith [hm t ht])
      (fun t ht hlt => by linarith [hm2 t ht (by linarith)])
  · obtain ⟨f1, f3, f4, f5⟩ := (run_facts h hC hT hrm (interp := interp) (err := err) hr.terms hr.args hr.event hr.rows hr.ok
      hr.ctol hr.near (hst (by linarith))).2 γ ctrl P H d hv hH hle hd0 hrun hch
    exact (event_logic (ρ := fun t => V3.norm (r t)) hH f1 hch f3 f4 f5).2 σ τ hτ.1 hτ.2 (fun t ht => by linarith [hm t ht])
      (fun t ht hlt => by linarith [hm2 t ht (by linarith)])

end

/-- The radius of a differentiable motion is continuous. -/
theorem continuousAt_radius {q : ℝ → V3 ℝ} {w : V3 ℝ} {t : ℝ} (h : HasDerivV q w t) :
    ContinuousAt (fun t => V3.norm (q t)) t := by
  have hx := h.x.continuousAt
  have hy := h.y.continuousAt
  have hz := h.z.continuousAt
  exact ((hx.mul hx).add (hy.mul hy) |>.add (hz.mul hz)).sqrt

/-- C86, bound orbits: for a flight of at least a revolution from above `rmin`, with short enough steps, `fixed_steps` with the
event comes back and ends by the event exactly if `rp_islower_rmin` is true of the initial state; likewise
every run of `adaptive_steps` that comes back. The case that the periapsis is exactly at `rmin` is left out. -/
theorem C86_orbit {mu rmin T A : ℝ} {args : Args ℝ} {r v : V3 ℝ} (hm : args "mu" = some mu) (hrm : args "rmin" = some rmin)
    (hmu : 0 < mu) (hh : angular_momentum r v ≠ ⟨0, 0, 0⟩) (ha : 0 < aOf r v mu) (hT : orb_period (aOf r v mu) mu ≤ T)
    (hA : 0 ≤ A) (hstart : rmin < V3.norm r) (hrp : radius_periapsis (pOf r v mu) (eOf r v mu) ≠ rmin) :
    ∃ δ > 0, ∀ (o : OrbDynx ℝ (V3 ℝ × V3 ℝ)) (tb : Tableau ℝ) (interp : ℝ → ℝ → V3 ℝ × V3 ℝ → V3 ℝ × V3 ℝ → ℝ → V3 ℝ × V3 ℝ)
      (err : ℝ → ℝ → V3 ℝ × V3 ℝ → V3 ℝ × V3 ℝ → V3 ℝ × V3 ℝ) (β ctol : ℝ),
      EventRun (secondOrder point_mass_grav) args (fun t => (exactProp r v mu t).1) (fun t => (exactProp r v mu t).2) A o tb β
        ctol 0 (r, v) →
      (∀ (dt : ℝ) (m : ℕ), 0 < dt → dt + ctol + |β - 1| ≤ δ → T ≤ m * dt →
        ∃ s, fixed_steps ctol o (r, v) T dt (rkSolver tb interp err) (some m) = some (.ok s) ∧
          s.event = rp_islower_rmin rmin r v mu) ∧
      (∀ (γ : Type) (ctrl : Controller ℝ (V3 ℝ × V3 ℝ) γ) (P : γ → Prop) (H : ℝ) (ms : Option ℕ) (s : Sol ℝ (V3 ℝ × V3 ℝ)),
        ctrl.Valid none P → 0 ≤ H → H + |β - 1| ≤ δ →
        adaptive_steps ctol o (r, v) T (rkSolver tb interp err) ctrl ms = some (.ok s) →
        s.saved.IsChain (fun p q => q.1 - p.1 ≤ H) → s.event = rp_islower_rmin rmin r v mu) := by
  have hP : 0 < orb_period (aOf r v mu) mu := by
    have := Real.pi_pos
    simp only [orb_period, pi_real, sqrt_real, Nat.cast_ofNat]
    positivity
  have hT0 : 0 < T := hP.trans_le hT
  obtain ⟨e0, C, h0, hC, hh0, hcl⟩ := C73_kepler (args := args) hm hmu hh hT0 hA
  have hcont : ContinuousOn (fun t => V3.norm (exactProp r v mu t).1) (Set.Icc 0 T) := fun t _ =>
    (continuousAt_radius ((C21_solves_two_body hmu hh).2 t (Set.mem_univ t)).2.1).continuousWithinAt
  have hdef : rp_islower_rmin rmin r v mu = true ↔ radius_periapsis (pOf r v mu) (eOf r v mu) < rmin := by
    simp [rp_islower_rmin, pOf, eOf]
  have hret : ∀ (o : OrbDynx ℝ (V3 ℝ × V3 ℝ)) (tb : Tableau ℝ) (interp : ℝ → ℝ → V3 ℝ × V3 ℝ → V3 ℝ × V3 ℝ → ℝ → V3 ℝ × V3 ℝ)
      (err : ℝ → ℝ → V3 ℝ × V3 ℝ → V3 ℝ × V3 ℝ → V3 ℝ × V3 ℝ) (β ctol : ℝ),
      EventRun (secondOrder point_mass_grav) args (fun t => (exactProp r v mu t).1) (fun t => (exactProp r v mu t).2) A o tb β
        ctol 0 (r, v) → ∀ (dt : ℝ) (m : ℕ), 0 < dt → T ≤ m * dt →
        ∃ s, fixed_steps ctol o (r, v) T dt (rkSolver tb interp err) (some m) = some (.ok s) := by
    intro o tb interp err β ctol hr dt m hdt hmT
    refine fixed_returns hr.ctol hT0 hdt (v := (v, (-(mu / V3.norm r ^ 3)) • r)) ?_ hr.event (w := V3.norm r - rmin) ?_ hmT
    · rw [hr.terms, hr.args]
      simp only [secondOrder, C41_point_mass_is_newton 0 mu _ args hm]; rfl
    · rw [hr.args]; exact radius_islow_ok hrm
  rcases lt_or_gt_of_ne hrp with hlt | hgt
  · obtain ⟨t0, ht0⟩ := reaches_periapsis hmu hh
    set P := orb_period (aOf r v mu) mu with hPdef
    have hfl := Int.floor_le (t0 / P)
    have hfl2 := Int.lt_floor_add_one (t0 / P)
    rw [le_div_iff₀ hP] at hfl
    rw [div_lt_iff₀ hP] at hfl2
    have hper : (exactProp r v mu (t0 - ⌊t0 / P⌋ * P)).1 = (exactProp r v mu t0).1 :=
      (C54_elliptic_least_period hmu hh ha t0 _).2 ⟨-⌊t0 / P⌋, by push_cast; ring⟩
    obtain ⟨δ, hδ, h⟩ := C86_alarm hcl hC hh0 hT0 hrm hcont (σ := 0) (τ := t0 - ⌊t0 / P⌋ * P) le_rfl hT0.le
      (fun t ht => by
        have : t = 0 := le_antisymm ht.2 ht.1
        simp only [this, e0]; exact hstart)
      ⟨by linarith, by linarith⟩ (by simp only [hper, ht0]; exact hlt)
    refine ⟨δ, hδ, fun o tb interp err β ctol hr => ⟨fun dt m hdt hle hmT => ?_, fun γ ctrl Q H ms s hv hH hle hrun hch => ?_⟩⟩
    · obtain ⟨s, hs⟩ := hret o tb interp err β ctol hr dt m hdt hmT
      obtain ⟨q, hq, -⟩ := (h o tb interp err β ctol 0 (r, v) (some m) s hr).1 dt hdt (by linarith) hs
      exact ⟨s, hs, by rw [hq, hdef.2 hlt]⟩
    · obtain ⟨q, hq, -⟩ := (h o tb interp err β ctol 0 (r, v) ms s hr).2 γ ctrl Q H hv hH (by linarith) hrun hch
      rw [hq, hdef.2 hlt]
  · have hfalse : rp_islower_rmin rmin r v mu = false := by
      rw [← Bool.not_eq_true, hdef]; exact not_lt.2 hgt.le
    obtain ⟨δ, hδ, h⟩ := C86_quiet hcl hC hh0 hT0 hrm hcont (fun t _ => by
      obtain ⟨e1, e2⟩ := exactProp_pe hmu hh t
      have h1 := C06_periapsis_le_radius (v := (exactProp r v mu t).2) (exactProp_ne hmu hh t) hmu
      rw [e1, e2] at h1
      linarith)
    refine ⟨δ, hδ, fun o tb interp err β ctol hr => ⟨fun dt m hdt hle hmT => ?_, fun γ ctrl Q H ms s hv hH hle hrun hch => ?_⟩⟩
    · obtain ⟨s, hs⟩ := hret o tb interp err β ctol hr dt m hdt hmT
      exact ⟨s, hs, by rw [hfalse, (h o tb interp err β ctol 0 (r, v) (some m) s hr).1 dt hdt (by linarith) hs]⟩
    · rw [hfalse, (h o tb interp err β ctol 0 (r, v) ms s hr).2 γ ctrl Q H hv hH (by linarith) hrun hch]

/-- The default parameters with a minimal radius. -/
noncomputable def rminArgs (rmin : ℝ) : Args ℝ := fun k => if k = "rmin" then some rmin else defaultArgs k

theorem euler_ok : RowsOk 1 1 eulerTb.rows 1 where
  abs p hp := by
    simp only [eulerTb, List.mem_cons, List.not_mem_nil, or_false] at hp
    subst hp
    simp [rowAbs]
  last p hp := by
    simp only [eulerTb, List.getLast?_singleton, Option.some.injEq] at hp
    subst hp
    norm_num
  tri i hi := by
    simp only [eulerTb, List.length_cons, List.length_nil] at hi
    have : i = 0 := by omega
    subst this
    simp [eulerTb]

/-- The orbit of the examples: started at apoapsis 1, with `e = 3/4` and periapsis `1/7`. -/
theorem dive_orbit : aOf ⟨1, 0, 0⟩ ⟨0, 1 / 2, 0⟩ 1 = 4 / 7 ∧
    radius_periapsis (pOf ⟨1, 0, 0⟩ ⟨0, 1 / 2, 0⟩ 1) (eOf ⟨1, 0, 0⟩ ⟨0, 1 / 2, 0⟩ 1) = (1 / 7 : ℝ) := by
  have n1 : V3.norm (⟨1, 0, 0⟩ : V3 ℝ) = 1 := by simp [V3.norm, dot]
  have n2 : V3.norm (⟨0, 1 / 2, 0⟩ : V3 ℝ) = 1 / 2 := by
    rw [V3.norm]; simp only [dot, sqrt_real]
    rw [show (0 * 0 + 1 / 2 * (1 / 2) + 0 * 0 : ℝ) = (1 / 2) ^ 2 by norm_num, Real.sqrt_sq (by norm_num)]
  have e1 : eOf ⟨1, 0, 0⟩ ⟨0, 1 / 2, 0⟩ 1 = 3 / 4 := by
    have : eccentricity_vector (⟨1, 0, 0⟩ : V3 ℝ) ⟨0, 1 / 2, 0⟩ 1 = ⟨-(3 / 4), 0, 0⟩ := by
      ext <;> simp [eccentricity_vector, angular_momentum, V3.cross, n1]
      norm_num
    rw [eOf, this, V3.norm]; simp only [dot, sqrt_real]
    rw [show (-(3 / 4) * -(3 / 4) + 0 * 0 + 0 * 0 : ℝ) = (3 / 4) ^ 2 by norm_num, Real.sqrt_sq (by norm_num)]
  have e2 : pOf ⟨1, 0, 0⟩ ⟨0, 1 / 2, 0⟩ 1 = 1 / 4 := by
    have : angular_momentum (⟨1, 0, 0⟩ : V3 ℝ) ⟨0, 1 / 2, 0⟩ = ⟨0, 0, 1 / 2⟩ := by
      ext <;> simp [angular_momentum, V3.cross]
    rw [pOf, semiparameter, this, V3.norm_sq]
    simp only [dot]; norm_num
  refine ⟨?_, ?_⟩
  · simp only [aOf, semimajor_axis, n1, n2, Nat.cast_one, Nat.cast_ofNat]; norm_num
  · rw [e1, e2]; simp only [radius_periapsis, Nat.cast_one]; norm_num

theorem rminArgs_mu (rmin : ℝ) : rminArgs rmin "mu" = some 1 := by simp [rminArgs, defaultArgs]

theorem rminArgs_rmin (rmin : ℝ) : rminArgs rmin "rmin" = some rmin := by simp [rminArgs]

/-- The hypotheses of `C86_orbit` can be met, with both answers: flown for a revolution with short Heun steps, the dive to `1/7` ends by
the event for `rmin = 1/2` and does not for `rmin = 1/10`. -/
example : ∃ δ > 0, ∀ (dt : ℝ) (m : ℕ), 0 < dt → dt ≤ δ → orb_period (4 / 7 : ℝ) 1 ≤ m * dt →
    (∃ s, fixed_steps 0 { terms := secondOrder point_mass_grav, args := rminArgs (1 / 2), event := some radEvent }
        ((⟨1, 0, 0⟩, ⟨0, 1 / 2, 0⟩) : V3 ℝ × V3 ℝ) (orb_period (4 / 7 : ℝ) 1) dt
        (rkSolver heun (fun _ _ y _ _ => y) (fun _ _ y _ => y)) (some m) = some (.ok s) ∧ s.event = true) ∧
    (∃ s, fixed_steps 0 { terms := secondOrder point_mass_grav, args := rminArgs (1 / 10), event := some radEvent }
        ((⟨1, 0, 0⟩, ⟨0, 1 / 2, 0⟩) : V3 ℝ × V3 ℝ) (orb_period (4 / 7 : ℝ) 1) dt
        (rkSolver heun (fun _ _ y _ _ => y) (fun _ _ y _ => y)) (some m) = some (.ok s) ∧ s.event = false) := by
  obtain ⟨ea, erp⟩ := dive_orbit
  have n1 : V3.norm (⟨1, 0, 0⟩ : V3 ℝ) = 1 := by simp [V3.norm, dot]
  have hh : angular_momentum (⟨1, 0, 0⟩ : V3 ℝ) ⟨0, 1 / 2, 0⟩ ≠ ⟨0, 0, 0⟩ := by simp [angular_momentum, V3.cross]
  have key : ∀ rmin : ℝ, rmin < 1 → (1 / 7 : ℝ) ≠ rmin → ∃ δ > 0, ∀ (dt : ℝ) (m : ℕ), 0 < dt → dt ≤ δ →
      orb_period (4 / 7 : ℝ) 1 ≤ m * dt → ∃ s, fixed_steps 0
        { terms := secondOrder point_mass_grav, args := rminArgs rmin, event := some radEvent }
        ((⟨1, 0, 0⟩, ⟨0, 1 / 2, 0⟩) : V3 ℝ × V3 ℝ) (orb_period (4 / 7 : ℝ) 1) dt
        (rkSolver heun (fun _ _ y _ _ => y) (fun _ _ y _ => y)) (some m) = some (.ok s) ∧
        s.event = decide ((1 / 7 : ℝ) < rmin) := by
    intro rmin h1 h2
    obtain ⟨δ, hδ, h⟩ := C86_orbit (rminArgs_mu rmin) (rminArgs_rmin rmin) one_pos hh (by rw [ea]; norm_num)
      (T := orb_period (4 / 7 : ℝ) 1) (by rw [ea]) zero_le_one (by rw [n1]; exact h1) (by rw [erp]; exact h2)
    refine ⟨δ, hδ, fun dt m hdt hle hm => ?_⟩
    obtain ⟨s, hs, he⟩ := (h { terms := secondOrder point_mass_grav, args := rminArgs rmin, event := some radEvent } heun (fun _ _ y _ _ => y) (fun _ _ y _ => y) 1 0
      ⟨rfl, rfl, rfl, by simp [heun], heun_ok, le_rfl, by
        rw [(C21_solves_two_body one_pos hh).1]; exact near_self _⟩).1 dt m hdt (by simpa using hle) hm
    refine ⟨s, hs, he.trans ?_⟩
    rw [← erp]; simp [rp_islower_rmin, pOf, eOf]
  obtain ⟨δ1, h1, k1⟩ := key (1 / 2) (by norm_num) (by norm_num)
  obtain ⟨δ2, h2, k2⟩ := key (1 / 10) (by norm_num) (by norm_num)
  refine ⟨min δ1 δ2, lt_min h1 h2, fun dt m hdt hle hm => ⟨?_, ?_⟩⟩
  · obtain ⟨s, hs, he⟩ := k1 dt m hdt (hle.trans (min_le_left _ _)) hm
    exact ⟨s, hs, by rw [he]; norm_num⟩
  · obtain ⟨s, hs, he⟩ := k2 dt m hdt (hle.trans (min_le_right _ _)) hm
    exact ⟨s, hs, by rw [he]; norm_num⟩

/-- A `fixed_steps` run whose step is the whole flight has at most two entries. -/
theorem one_step_list {Y σ : Type} {o : OrbDynx ℝ Y} {x0 : Y} {t1 ctol : ℝ} {solver : Solver ℝ Y σ} {ms : Option ℕ}
    {s : Sol ℝ Y} (hc : 0 ≤ ctol) (h01 : 0 < t1) (h : fixed_steps ctol o x0 t1 t1 solver ms = some (.ok s)) :
    s.saved = [(0, x0)] ∨ ∃ b, s.saved = [(0, x0), b] := by
  obtain ⟨rest, e0, hpw, -, -, -, hle, -⟩ := C45_fixed hc h01 h01 h
  obtain ⟨last, e1, -, -⟩ := C45_fixed_times hc h01 h01 h
  match rest, e0 with
  | [], e0 => exact Or.inl e0
  | [b], e0 => exact Or.inr ⟨b, e0⟩
  | b :: c :: l, e0 =>
    exfalso
    have hlen := congrArg List.length e1
    simp only [e0, List.length_map, List.length_cons, List.length_append, List.length_range, List.length_nil] at hlen
    have hb : (s.saved.map Prod.fst)[1]? = some b.1 := by simp [e0]
    rw [e1, List.getElem?_append_left (by simp; omega), List.getElem?_map, List.getElem?_range (by omega)] at hb
    simp only [Option.map_some, Nat.cast_one, one_mul, Option.some.injEq] at hb
    rw [e0] at hpw
    simp only [List.map_cons, List.pairwise_cons, List.mem_cons] at hpw
    have h1 : b.1 < c.1 := hpw.2.1 c.1 (Or.inl rfl)
    have h2 : c.1 ≤ t1 := hle c (by rw [e0]; simp)
    linarith

/-- C86, refuted for a given step: a dive to `1/7` flown for a revolution in one Euler step comes back without event for
`rmin = 1/2`, though `rp_islower_rmin` is true and the true orbit goes below `1/2` during the flight. -/
theorem C86_missed_refuted (interp : ℝ → ℝ → V3 ℝ × V3 ℝ → V3 ℝ × V3 ℝ → ℝ → V3 ℝ × V3 ℝ)
    (err : ℝ → ℝ → V3 ℝ × V3 ℝ → V3 ℝ × V3 ℝ → V3 ℝ × V3 ℝ) :
    rp_islower_rmin (1 / 2 : ℝ) ⟨1, 0, 0⟩ ⟨0, 1 / 2, 0⟩ 1 = true ∧
    (∃ t ∈ Set.Icc 0 (orb_period (4 / 7 : ℝ) 1), V3.norm (exactProp ⟨1, 0, 0⟩ ⟨0, 1 / 2, 0⟩ 1 t).1 < 1 / 2) ∧
    ∃ s, fixed_steps 0 { terms := secondOrder point_mass_grav, args := rminArgs (1 / 2), event := some radEvent }
        ((⟨1, 0, 0⟩, ⟨0, 1 / 2, 0⟩) : V3 ℝ × V3 ℝ) (orb_period (4 / 7 : ℝ) 1) (orb_period (4 / 7 : ℝ) 1)
        (rkSolver eulerTb interp err) (some 1) = some (.ok s) ∧ s.event = false := by
  obtain ⟨ea, erp⟩ := dive_orbit
  have hh : angular_momentum (⟨1, 0, 0⟩ : V3 ℝ) ⟨0, 1 / 2, 0⟩ ≠ ⟨0, 0, 0⟩ := by simp [angular_momentum, V3.cross]
  have n1 : V3.norm (⟨1, 0, 0⟩ : V3 ℝ) = 1 := by simp [V3.norm, dot]
  have hP : 0 < orb_period (4 / 7 : ℝ) 1 := by
    have := Real.pi_pos
    simp only [orb_period, pi_real, sqrt_real, Nat.cast_ofNat]
    positivity
  have hlow : rp_islower_rmin (1 / 2 : ℝ) ⟨1, 0, 0⟩ ⟨0, 1 / 2, 0⟩ 1 = true := by
    have : rp_islower_rmin (1 / 2 : ℝ) ⟨1, 0, 0⟩ ⟨0, 1 / 2, 0⟩ 1
        = decide (radius_periapsis (pOf ⟨1, 0, 0⟩ ⟨0, 1 / 2, 0⟩ 1) (eOf ⟨1, 0, 0⟩ ⟨0, 1 / 2, 0⟩ 1) < (1 / 2 : ℝ)) := by
      simp [rp_islower_rmin, pOf, eOf]
    rw [this, erp]; norm_num
  set P := orb_period (4 / 7 : ℝ) 1 with hPdef
  refine ⟨hlow, ?_, ?_⟩
  · obtain ⟨t0, ht0⟩ := reaches_periapsis (mu := 1) one_pos hh
    have hfl := Int.floor_le (t0 / P)
    have hfl2 := Int.lt_floor_add_one (t0 / P)
    rw [le_div_iff₀ hP] at hfl
    rw [div_lt_iff₀ hP] at hfl2
    have hper := (C54_elliptic_least_period one_pos hh (by rw [ea]; norm_num) t0 (t0 - ⌊t0 / P⌋ * P)).2
      ⟨-⌊t0 / P⌋, by rw [ea]; push_cast; ring⟩
    exact ⟨t0 - ⌊t0 / P⌋ * P, ⟨by linarith, by linarith⟩, by rw [hper, ht0, erp]; norm_num⟩
  · set o : OrbDynx ℝ (V3 ℝ × V3 ℝ) :=
      { terms := secondOrder point_mass_grav, args := rminArgs (1 / 2), event := some radEvent } with ho
    have hfield : IsField point_mass_grav o.args (fun p => (-((1 : ℝ) / V3.norm p ^ 3)) • p) := fun t rest p =>
      C41_point_mass_is_newton t 1 _ o.args (rminArgs_mu (1 / 2))
    obtain ⟨s, hs⟩ := fixed_returns (o := o) (x0 := ((⟨1, 0, 0⟩, ⟨0, 1 / 2, 0⟩) : V3 ℝ × V3 ℝ))
      (solver := rkSolver eulerTb interp err) (m := 1) (le_refl (0 : ℝ)) hP hP
      (v := (⟨0, 1 / 2, 0⟩, (-((1 : ℝ) / V3.norm (⟨1, 0, 0⟩ : V3 ℝ) ^ 3)) • ⟨1, 0, 0⟩))
      (by
        change secondOrder point_mass_grav 0 _ o.args = _
        simp only [secondOrder, C41_point_mass_is_newton 0 1 _ o.args (rminArgs_mu (1 / 2))]; rfl)
      (e := radEvent) rfl (radius_islow_ok (rminArgs_rmin (1 / 2))) (by simp)
    refine ⟨s, hs, ?_⟩
    have hrad := rad_run (c := fixedCall o ((⟨1, 0, 0⟩, ⟨0, 1 / 2, 0⟩) : V3 ℝ × V3 ℝ) P P (some 1) (rkSolver eulerTb interp err))
      rfl rfl rfl rfl (le_refl (0 : ℝ)) (by simpa [fixedCall] using hP) (constant_valid hP) rfl (rminArgs_rmin (1 / 2))
      (by change (1 / 2 : ℝ) < V3.norm (⟨1, 0, 0⟩ : V3 ℝ); rw [n1]; norm_num) hs
    have hch := (C74_chain hfield rfl le_rfl hP (Or.inl ⟨P, hP, hs⟩)).2
    have hall : ∀ p ∈ s.saved, 1 ≤ V3.norm p.2.1 := by
      have hfirst : (1 : ℝ) ≤ V3.norm (⟨1, 0, 0⟩ : V3 ℝ) := n1.ge
      rcases one_step_list le_rfl hP hs with e | ⟨b, e⟩
      · intro p hp
        rw [e, List.mem_singleton] at hp
        rw [hp]; exact hfirst
      · rw [e, List.isChain_cons_cons] at hch
        have hb := hch.1.2
        intro p hp
        rw [e] at hp
        simp only [List.mem_cons, List.not_mem_nil, or_false] at hp
        rcases hp with rfl | rfl
        · exact hfirst
        · have hx : p.2.1.x = 1 := by
            rw [hb]
            change (1 : ℝ) + (_ * 1) * 0 = 1
            ring
          calc (1 : ℝ) = |p.2.1.x| := by rw [hx, abs_one]
            _ ≤ V3.norm p.2.1 := by
              rw [V3.norm, sqrt_real]
              refine Real.abs_le_sqrt ?_
              simp only [dot]
              nlinarith [mul_self_nonneg p.2.1.y, mul_self_nonneg p.2.1.z]
    by_contra hev
    obtain ⟨l, q, e1, -, e3⟩ := hrad.2 (by simpa using hev)
    linarith [hall q (by rw [e1]; simp)]

end Adx
