import Verif.Props.C46

/-! # C46, `custom_steps`: an event cuts off the requested times

`custom_steps` makes the steps `adaptive_steps` would make with enough of them allowed, and ends as that run ends.
What it returns are the requested times up to that end. -/

namespace Adx

variable {Y σ γ : Type} {ctol : ℝ} {o : OrbDynx ℝ Y} {x0 : Y} {t1 : ℝ} {solver : Solver ℝ Y σ}
  {ctrl : Controller ℝ Y γ} {P : γ → Prop}

/-- Nothing is saved at a time not yet reached. -/
theorem ts_le {c : Call ℝ Y σ γ} {f : ℝ → Y → Y} {g : Option (ℝ → Y → ℝ)} {first : ℝ × γ}
    (hc : 0 ≤ ctol) (hv : c.stepsize_controller.Valid c.dt0 P) (h01 : c.t0 < c.t1)
    (hi : c.stepsize_controller.init f c.t0 c.t1 c.y0 c.dt0 = .ok first)
    (hs : c.saveat.steps = false) (ts : List ℝ)
    (k : ℕ) (hrun : ∀ j < k, running c.t1 (coreAt ctol c f g first j) = true) :
    ∀ p ∈ (savesAt c.saveat (coreAt ctol c f g first) ([], ts) k).1, p.1 ≤ (coreAt ctol c f g first k).tprev := by
  induction k with
  | zero => simp [savesAt]
  | succ k ih =>
    have h2 := ih fun j hj => hrun j (by omega)
    have hk := hrun k (by omega)
    simp only [running, lt_real, Bool.and_eq_true, decide_eq_true_eq] at hk
    have hok := (trace_inv (g := g) hc hv h01 hi k fun j hj => hrun j (by omega)).1
    obtain ⟨-, hcase⟩ := coreStep_ok (f := f) (g := g) hc hv hok hk.1
    obtain ⟨hn1, -⟩ := hok.next hk.1
    rw [← coreAt_succ] at hcase
    simp only [savesAt, saveStep]
    rcases hcase with ⟨e1, e2, -⟩ | ⟨e1, e2, -, e4, -⟩
    · simp only [e1, Bool.false_eq_true, if_false, e2]
      exact h2
    · simp only [e1, if_true, hs, Bool.false_eq_true, if_false, List.append_nil]
      intro p hp
      rcases List.mem_append.1 hp with hp | hp
      · rw [e2]; exact (h2 p hp).trans hn1.le
      obtain ⟨t, ht, rfl⟩ := List.mem_map.1 hp
      have := List.all_eq_true.1 List.all_takeWhile t ht
      simpa [lt_real] using this

/-- A run that has ended has left its starting time. -/
theorem end_after_start {c : Call ℝ Y σ γ} {f : ℝ → Y → Y} {g : Option (ℝ → Y → ℝ)} {first : ℝ × γ}
    (hc : 0 ≤ ctol) (hv : c.stepsize_controller.Valid c.dt0 P) (h01 : c.t0 < c.t1)
    (hi : c.stepsize_controller.init f c.t0 c.t1 c.y0 c.dt0 = .ok first)
    (k : ℕ) (hrun : ∀ j < k, running c.t1 (coreAt ctol c f g first j) = true)
    (hend : running c.t1 (coreAt ctol c f g first k) = false) : c.t0 < (coreAt ctol c f g first k).tprev := by
  obtain ⟨hok, ⟨B, hB⟩, hch, hn, hs⟩ := trace_inv (g := g) hc hv h01 hi k hrun
  cases hev : (coreAt ctol c f g first k).event with
  | false =>
    simp only [running, lt_real, hev, Bool.not_false, Bool.and_true, decide_eq_false_iff_not, not_lt] at hend
    linarith
  | true =>
    rcases g with - | h
    · rw [hn rfl] at hev; cases hev
    obtain ⟨q, p, C, hC, -, -⟩ := (hs h rfl).2.2 hev
    obtain ⟨D, hD⟩ := keptRev_getLast (c.t0, c.y0) (coreAt ctol c f (some h) first) k
    have hpw : ((keptRev (c.t0, c.y0) (coreAt ctol c f (some h) first) k).map Prod.fst).Pairwise
        (fun a b => b < a) := by
      have := isChain_pairwise (R := StepOf c f) (fun p q h => h.1) (List.isChain_reverse.2 hch)
      rwa [List.map_reverse, List.pairwise_reverse] at this
    cases D with
    | nil => rw [hC] at hD; simp at hD
    | cons d D =>
      rw [hD, List.cons_append] at hB
      rw [hD, List.cons_append, (List.cons.inj hB).1, List.map_cons, List.pairwise_cons] at hpw
      exact hpw.1 c.t0 (by simp)

/-- C46, `custom_steps`: the run makes the iterations of `adaptive_steps` (with enough of them allowed), ends by the
event if that one does, and returns exactly the requested times up to the time where that one ends. -/
theorem C46_custom {s : Sol ℝ Y} {ts : List ℝ} (hc : 0 ≤ ctol) (h01 : 0 < t1) (hv : ctrl.Valid none P)
    (h : custom_steps ctol o x0 t1 ts solver ctrl = some (.ok s)) :
    ∃ s' T y, adaptive_steps ctol o x0 t1 solver ctrl (some s.num_steps) = some (.ok s') ∧
      s'.event = s.event ∧ s'.num_steps = s.num_steps ∧ s'.saved.getLast? = some (T, y) ∧ 0 < T ∧
      s.saved.map Prod.fst = ts.filter (fun t => decide (t ≤ T)) := by
  set c := customCall o x0 t1 ts solver ctrl with hcdef
  have h0 : c.t0 = 0 := Nat.cast_zero
  have h01' : c.t0 < c.t1 := by rw [h0]; exact h01
  change diffeqsolve ctol c = some (.ok s) at h
  obtain ⟨hts, f, g, first, hf, hg, hi, hl⟩ := diffeqsolve_ok _ _ h
  obtain ⟨k, hr, hm, hrun, hres⟩ := diffeqLoop_ok _ _ _ _ _ hl
  rw [tsOk_real] at hts
  obtain ⟨-, -, h3⟩ := ts_inv (ts := ts) (g := g) hc hv h01' hi rfl hts.2 (fun t ht => (hts.1 t ht).1) k hr
  have h2 := ts_le (g := g) hc hv h01' hi rfl ts k hr
  have h4 := savesAt_ts (coreAt ctol c f g first) c.saveat rfl ts k
  have hT := end_after_start (g := g) hc hv h01' hi k hr hrun
  have hsaved : s.saved = (savesAt c.saveat (coreAt ctol c f g first) ([], ts) k).1 := by
    rw [hres]
    simp only [show c.saveat.t0 = false from rfl, show c.saveat.t1 = false from rfl,
      Bool.false_eq_true, if_false, List.append_nil]
    rfl
  have hk : s.num_steps = k := by rw [hres]
  have hev : s.event = (coreAt ctol c f g first k).event := by rw [hres]
  set d := adaptiveCall o x0 t1 (some k) solver ctrl with hddef
  have hd : ∀ j, coreAt ctol d f g first j = coreAt ctol c f g first j :=
    fun j => coreAt_congr ctol c f g first d rfl rfl rfl rfl rfl j
  have hloop := diffeqLoop_of (k := k) ctol d f g first
    (fun j hj => by
      rw [show d.max_steps = some k from rfl]
      simp only [loopCond, hd, num_steps_coreAt, hj, decide_true, Bool.and_true]
      exact hr j hj)
    (by simp only [loopCond, hd, show d.t1 = c.t1 from rfl, hrun, Bool.false_and])
  rw [hd, show d.t1 = c.t1 from rfl, hrun] at hloop
  simp only [Bool.false_eq_true, if_false, show d.saveat.t0 = true from rfl, show d.saveat.t1 = false from rfl,
    show d.saveat.ts = [] from rfl, if_true, List.append_nil, savesAt_steps _ _ d.saveat rfl] at hloop
  have hsolve : adaptive_steps ctol o x0 t1 solver ctrl (some k) = diffeqLoop ctol d f g first := by
    change diffeqsolve ctol d = _
    have b1 : traceTerms d = .ok f := hf
    have b2 : traceEvent d = .ok g := hg
    have b3 : d.stepsize_controller.init f d.t0 d.t1 d.y0 d.dt0 = .ok first := hi
    unfold diffeqsolve
    simp only [b1, b2, b3]
    simp [hddef, adaptiveCall, tsOk]
  obtain ⟨B, hB⟩ := (trace_inv (g := g) hc hv h01' hi k hr).2.1
  have hfun : coreAt ctol d f g first = coreAt ctol c f g first := funext hd
  rw [hk]
  refine ⟨_, (coreAt ctol c f g first k).tprev, (coreAt ctol c f g first k).y, hsolve.trans hloop, hev.symm, rfl, ?_,
    by rw [← h0]; exact hT, ?_⟩
  · rw [hfun, show (d.t0, d.y0) = (c.t0, c.y0) from rfl, hB]
    simp
  · rw [hsaved]
    generalize savesAt c.saveat (coreAt ctol c f g first) ([], ts) k = w at h2 h3 h4
    rw [← h4, List.filter_append, List.filter_eq_self.2, List.filter_eq_nil_iff.2, List.append_nil]
    · intro t ht
      rcases h3 t ht with h5 | ⟨h5, -⟩
      · simpa using h5
      · exact absurd h5 hT.ne'
    · intro t ht
      obtain ⟨p, hp, rfl⟩ := List.mem_map.1 ht
      simpa using h2 p hp

/-- C46, `custom_steps` with `radius_islow`: it ends by the event exactly if the steps reach `rmin` or below, and
returns the requested times up to the end of the first such step. -/
theorem C46_custom_radius {o : OrbDynx ℝ (State ℝ)} {x0 : State ℝ} {solver : Solver ℝ (State ℝ) σ}
    {ctrl : Controller ℝ (State ℝ) γ} {ts : List ℝ} {s : Sol ℝ (State ℝ)} {rmin : ℝ} (hc : 0 ≤ ctol)
    (h01 : 0 < t1) (hv : ctrl.Valid none P) (he : o.event = some radius_islow)
    (hrm : o.args "rmin" = some rmin) (hstart : rmin < V3.norm x0.pos)
    (h : custom_steps ctol o x0 t1 ts solver ctrl = some (.ok s)) :
    ∃ s' T x, adaptive_steps ctol o x0 t1 solver ctrl (some s.num_steps) = some (.ok s') ∧ RadiusContract rmin s' ∧
      s'.saved.getLast? = some (T, x) ∧ (s.event = true ↔ V3.norm x.pos ≤ rmin) ∧
      s.saved.map Prod.fst = ts.filter (fun t => decide (t ≤ T)) := by
  obtain ⟨s', T, x, h1, h2, -, h4, -, h6⟩ := C46_custom hc h01 hv h
  have hR := C46_adaptive hc h01 hv he hrm hstart h1
  refine ⟨s', T, x, h1, hR, h4, ?_, h6⟩
  rw [← h2]
  constructor
  · intro hev
    obtain ⟨l, q, e1, -, -, e4⟩ := hR.2 hev
    rw [e1, List.getLast?_append] at h4
    simp at h4
    rw [h4] at e4; exact e4
  · intro hle
    by_contra hev
    have := hR.1 (by simpa using hev) (T, x) (List.mem_of_getLast? h4)
    simp only at this
    linarith

/-- Steps of length one, always kept. -/
def unitSteps : Controller ℝ (State ℝ) Unit where
  init _ t0 _ _ _ := .ok (t0 + 1, ())
  adapt _ t1 _ _ _ _ := (true, t1, t1 + 1, ())

theorem unitSteps_valid : unitSteps.Valid none (fun _ => True) where
  init := by
    rintro f t0 t1 y0 r h -
    simp only [unitSteps, Except.ok.injEq] at h
    subst h
    exact ⟨by simp, trivial⟩
  keep := by
    rintro t0 t1 y0 y1 err s h - -
    exact ⟨rfl, by simp [unitSteps]⟩
  reject := by
    rintro t0 t1 y0 y1 err s h - h'
    simp [unitSteps] at h'
  pres := by rintro t0 t1 y0 y1 err s h -; trivial

/-- A case: from radius 3 to the origin in the first of two unit steps; of the requested times `1/2` and `3/2`
the event leaves the first. -/
example : ∃ s, custom_steps (1 / 10 ^ 6) lowOrbit ⟨⟨3, 0, 0⟩, []⟩ (2 : ℝ) [1 / 2, 3 / 2] fall unitSteps = some (.ok s) ∧
    s.event = true ∧ s.saved.map Prod.fst = [1 / 2] ∧ unitSteps.Valid none (fun _ => True) := by
  have hx : V3.norm (⟨3, 0, 0⟩ : V3 ℝ) = 3 := norm_axis (by norm_num)
  have hz : V3.norm (⟨0, 0, 0⟩ : V3 ℝ) = 0 := norm_axis le_rfl
  set c := customCall lowOrbit ⟨⟨3, 0, 0⟩, []⟩ (2 : ℝ) [1 / 2, 3 / 2] fall unitSteps with hcdef
  have h0 : c.t0 = 0 := Nat.cast_zero
  have hg : traceEvent c = .ok (some fun _ y => V3.norm y.pos - 2) :=
    traceEvent_radius rfl (by simp [hcdef, customCall, lowOrbit])
  obtain ⟨f, hf⟩ : ∃ f, traceTerms c = .ok f := ⟨_, rfl⟩
  have hi : c.stepsize_controller.init f c.t0 c.t1 c.y0 c.dt0 = .ok (0 + 1, ()) := by
    rw [h0]; rfl
  have hts : tsOk c.t0 c.t1 c.saveat.ts = true := by
    rw [tsOk_real, h0]
    simp only [hcdef, customCall]
    norm_num
  have hsolve : custom_steps (1 / 10 ^ 6) lowOrbit ⟨⟨3, 0, 0⟩, []⟩ (2 : ℝ) [1 / 2, 3 / 2] fall unitSteps
      = diffeqLoop (1 / 10 ^ 6) c f (some fun _ y => V3.norm y.pos - 2) (0 + 1, ()) := by
    change diffeqsolve _ c = _
    unfold diffeqsolve
    simp only [hf, hg, hi, hts]
    simp [hcdef, customCall]
  set K := coreAt (1 / 10 ^ 6) c f (some fun _ y => V3.norm y.pos - 2) (0 + 1, ()) with hK
  have a1 : (K 0).tprev = 0 := h0
  have a2 : (K 0).tnext = 1 := by
    change jmin (0 + 1 : ℝ) 2 = 1; rw [jmin_real]; norm_num
  have b1 : (K 1).tprev = 1 := by
    change jmin (K 0).tnext 2 = 1; rw [jmin_real, a2]; norm_num
  have b3 : (K 1).kept = true := rfl
  have b4 : (K 1).event = true := by
    change decide (sgn (V3.norm (⟨0, 0, 0⟩ : V3 ℝ) - 2) ≠ sgn (V3.norm (⟨3, 0, 0⟩ : V3 ℝ) - 2)) = true
    rw [hx, hz, sgn_real_pos.2 (show (0 : ℝ) < 3 - 2 by norm_num), sgn_real_neg.2 (show (0 : ℝ) - 2 < 0 by norm_num)]
    decide
  have hloop := diffeqLoop_of (k := 1) (1 / 10 ^ 6) c f (some fun _ y => V3.norm y.pos - 2) (0 + 1, ())
    (by
      intro j hj
      obtain rfl : j = 0 := by omega
      have : running (2 : ℝ) (K 0) = true := by
        simp only [running, a1, lt_real, zero_lt_two, decide_true, Bool.true_and]; rfl
      change loopCond (2 : ℝ) none (K 0) = true
      rw [loopCond, this]; rfl)
    (by
      change loopCond (2 : ℝ) none (K 1) = false
      simp [loopCond, running, b4])
  rw [← hK, show running c.t1 (K 1) = false by simp [running, b4]] at hloop
  simp only [Bool.false_eq_true, if_false] at hloop
  refine ⟨_, hsolve.trans hloop, b4, ?_, unitSteps_valid⟩
  simp only [show c.saveat.t0 = false from rfl, show c.saveat.t1 = false from rfl,
    show c.saveat.ts = [1 / 2, 3 / 2] from rfl, Bool.false_eq_true, if_false, List.append_nil, savesAt, saveStep, b3, b1,
    if_true, show c.saveat.steps = false from rfl, List.nil_append, List.map_map]
  norm_num [List.takeWhile, lt_real]

end Adx
