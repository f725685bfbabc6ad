import Verif.Props.C80b

/-! # C80, continued: the saved steps, there and back -/

namespace Adx
open V3 Spec

theorem rkCombine_neg (h : ℝ) : ∀ (row : List ℝ) (ks : List (V3 ℝ × V3 ℝ)) (y : V3 ℝ × V3 ℝ),
    rkCombine h y row (ks.map fun k => -k) = rkCombine (-h) y row ks := by
  intro row
  induction row with
  | nil => intro ks y; rfl
  | cons a row ih =>
    intro ks y
    cases ks with
    | nil => rfl
    | cons k ks =>
      have e : y + (h * a) • (-k) = y + (-h * a) • k := by
        refine Prod.ext (V3.ext ?_ ?_ ?_) (V3.ext ?_ ?_ ?_)
        · show y.1.x + h * a * -k.1.x = y.1.x + -h * a * k.1.x; ring
        · show y.1.y + h * a * -k.1.y = y.1.y + -h * a * k.1.y; ring
        · show y.1.z + h * a * -k.1.z = y.1.z + -h * a * k.1.z; ring
        · show y.2.x + h * a * -k.2.x = y.2.x + -h * a * k.2.x; ring
        · show y.2.y + h * a * -k.2.y = y.2.y + -h * a * k.2.y; ring
        · show y.2.z + h * a * -k.2.z = y.2.z + -h * a * k.2.z; ring
      have := ih ks (y + (h * a) • (-k))
      rw [e] at this
      show rkCombine h (y + (h * a) • (-k)) row (ks.map fun k => -k) = _
      rw [e, this]; rfl

theorem rkStages_neg (F : V3 ℝ × V3 ℝ → V3 ℝ × V3 ℝ) (t t' h : ℝ) (y : V3 ℝ × V3 ℝ) :
    ∀ (rows : List (ℝ × List ℝ)) (ks : List (V3 ℝ × V3 ℝ)) (yl kl : V3 ℝ × V3 ℝ),
    (rkStages (fun _ y => -F y) t h y rows (ks.map fun k => -k) yl (-kl)).1
      = (rkStages (fun _ => F) t' (-h) y rows ks yl kl).1 := by
  intro rows
  induction rows with
  | nil => intro ks yl kl; rfl
  | cons p rest ih =>
    intro ks yl kl
    simp only [rkStages]
    rw [rkCombine_neg, ← ih, List.map_append, List.map_singleton]

/-- A step with the negated field is a step of negative length. -/
theorem rkStep_neg (tb : Tableau ℝ) (F : V3 ℝ × V3 ℝ → V3 ℝ × V3 ℝ) (h : ℝ) (y : V3 ℝ × V3 ℝ) :
    rkStep tb (fun y => -F y) h y = rkStep tb F (-h) y :=
  rkStages_neg F h (-h) h y tb.rows [F y] y (F y)

section
variable {acc : ℝ → State ℝ → Args ℝ → Except PyErr (V3 ℝ)} {f : V3 ℝ → V3 ℝ} {o : OrbDynx ℝ (V3 ℝ × V3 ℝ)} {tb : Tableau ℝ}
  {interp : ℝ → ℝ → V3 ℝ × V3 ℝ → V3 ℝ × V3 ℝ → ℝ → V3 ℝ × V3 ℝ}
  {err : ℝ → ℝ → V3 ℝ × V3 ℝ → V3 ℝ × V3 ℝ → V3 ℝ × V3 ℝ} {ctol t1 : ℝ} {ms : Option ℕ} {s : Sol ℝ (V3 ℝ × V3 ℝ)}
  {x0 : V3 ℝ × V3 ℝ}

/-- A backward run of `fixed_steps` with a negative step, or of `adaptive_steps` with a valid controller, that came back
with `s`. -/
def BackRun (o : OrbDynx ℝ (V3 ℝ × V3 ℝ)) (ctol t1 : ℝ) (ms : Option ℕ) (x0 : V3 ℝ × V3 ℝ)
    (solver : Solver ℝ (V3 ℝ × V3 ℝ) (V3 ℝ × V3 ℝ)) (s : Sol ℝ (V3 ℝ × V3 ℝ)) : Prop :=
  (∃ dt < 0, fixed_steps_any ctol o x0 t1 dt solver ms = some (.ok s)) ∨
  ∃ (γ : Type) (ctrl : Controller ℝ (V3 ℝ × V3 ℝ) γ) (P : γ → Prop), ctrl.Valid none P ∧
    adaptive_steps_any ctol o x0 t1 solver ctrl ms = some (.ok s)

/-- C80: every state saved by a backward run is one step of the method, with a negative step length, from the state before:
the same formula as for a forward run (`C74_chain`). -/
theorem C80_chain (hf : IsField acc o.args f) (ho : o.terms = secondOrder acc) (hc : 0 ≤ ctol) (h1 : t1 < 0)
    (h : BackRun o ctol t1 ms x0 (rkSolver tb interp err) s) :
    s.saved.head? = some (0, x0) ∧
    s.saved.IsChain fun p q => q.1 < p.1 ∧ q.2 = rkStep tb (fun y : V3 ℝ × V3 ℝ => (y.2, f y.1)) (q.1 - p.1) p.2 := by
  have hterm : ∀ t y, (reverseDyn o).terms t y (reverseDyn o).args = .ok (-(y.2, f y.1)) := by
    intro t y
    have e1 := hf (-t) [y.2.x, y.2.y, y.2.z] y.1
    show (o.terms (-t) y o.args).map (fun v => -v) = _
    rw [ho]; simp only [secondOrder, e1]; rfl
  have fin : ∀ s' : Sol ℝ (V3 ℝ × V3 ℝ), (s'.saved.head? = some (0, x0) ∧ s'.saved.IsChain fun p q => p.1 < q.1 ∧
        q.2 = rkStep tb (fun y : V3 ℝ × V3 ℝ => -(y.2, f y.1)) (q.1 - p.1) p.2) →
      s'.negTimes.saved.head? = some (0, x0) ∧ s'.negTimes.saved.IsChain fun p q => q.1 < p.1 ∧
        q.2 = rkStep tb (fun y : V3 ℝ × V3 ℝ => (y.2, f y.1)) (q.1 - p.1) p.2 := by
    rintro s' ⟨e1, e2⟩
    refine ⟨by simp [Sol.negTimes, e1], ?_⟩
    simp only [Sol.negTimes, List.isChain_map]
    refine e2.imp fun p q hpq => ⟨neg_lt_neg hpq.1, ?_⟩
    rw [hpq.2, rkStep_neg, show -(q.1 - p.1) = -q.1 - -p.1 by ring]
  rcases h with ⟨dt, hdt, h⟩ | ⟨γ, ctrl, P, hv, h⟩
  · rw [(C80_backward (ctrl := (constantStepSize : Controller ℝ (V3 ℝ × V3 ℝ) ℝ)) h1 hdt.le ms [] {} none (by simp)).1] at h
    obtain ⟨s', hs, rfl⟩ := map_ok h
    have h0 : (fixedCall (reverseDyn o) x0 (-t1) (-dt) ms (rkSolver tb interp err)).t0 = 0 := Nat.cast_zero
    have := rk_chain (c := fixedCall (reverseDyn o) x0 (-t1) (-dt) ms (rkSolver tb interp err)) rfl hterm rfl rfl rfl rfl hc
      (by rw [h0]; show 0 < -t1; linarith) (constant_valid (by linarith)) hs
    rw [h0] at this
    exact fin s' this
  · rw [(C80_backward (dt := 0) h1 le_rfl ms [] {} none (by simp)).2.1] at h
    obtain ⟨s', hs, rfl⟩ := map_ok h
    have h0 : (adaptiveCall (reverseDyn o) x0 (-t1) ms (rkSolver tb interp err) ctrl).t0 = 0 := Nat.cast_zero
    have := rk_chain (c := adaptiveCall (reverseDyn o) x0 (-t1) ms (rkSolver tb interp err) ctrl) rfl hterm rfl rfl rfl rfl hc
      (by rw [h0]; show 0 < -t1; linarith) hv hs
    rw [h0] at this
    exact fin s' this

/-- One step there. -/
theorem one_step_there {h : ℝ} (hf : IsField acc o.args f) (ho : o.terms = secondOrder acc) (he : o.event = none)
    (hc : 0 ≤ ctol) (hh : 0 < h) : ∃ s, fixed_steps_any ctol o x0 h h (rkSolver tb interp err) (some 1) = some (.ok s) ∧
      s.saved = [(0, x0), (h, rkStep tb (fun y : V3 ℝ × V3 ℝ => (y.2, f y.1)) h x0)] := by
  have e1 := hf 0 [x0.2.x, x0.2.y, x0.2.z] x0.1
  obtain ⟨s, hs, hev⟩ := C45_fixed_completes (o := o) (x0 := x0) (t1 := h) (dt := h) (solver := rkSolver tb interp err) (m := 1)
    (v := (x0.2, f x0.1)) hc hh hh he (by rw [ho]; simp only [secondOrder, e1]; rfl) (by simp)
  have hany : fixed_steps_any ctol o x0 h h (rkSolver tb interp err) (some 1) = some (.ok s) := by
    rw [(C80_forward (ctrl := (constantStepSize : Controller ℝ (V3 ℝ × V3 ℝ) ℝ)) hh hh.le (some 1) [] {} none (by simp)).1]
    exact hs
  refine ⟨s, hany, ?_⟩
  obtain ⟨-, hch⟩ := C74_chain hf ho hc hh (Or.inl ⟨h, hh, hs⟩)
  obtain ⟨rest, h1, -, -, -, h5, -, -⟩ := C45_fixed hc hh hh hs
  obtain ⟨last, e1, -, e3⟩ := C45_fixed_times hc hh hh hs
  obtain ⟨rfl, hn, -, -⟩ := e3 hev
  have hn1 : s.num_steps = 1 := le_antisymm (h5 1 rfl) hn
  rw [hn1, h1] at e1
  rcases rest with _ | ⟨q, _ | ⟨q', rest⟩⟩
  · simp at e1
  · rw [h1] at hch ⊢
    have hq : q.1 = last := by simpa using e1
    have := (List.isChain_pair.1 hch).2
    rw [hq, sub_zero] at this
    rw [← this, ← hq]
  · simp at e1

/-- One step back. -/
theorem one_step_back {h : ℝ} (hf : IsField acc o.args f) (ho : o.terms = secondOrder acc) (he : o.event = none)
    (hc : 0 ≤ ctol) (hh : 0 < h) : ∃ s, fixed_steps_any ctol o x0 (-h) (-h) (rkSolver tb interp err) (some 1) = some (.ok s) ∧
      s.saved = [(0, x0), (-h, rkStep tb (fun y : V3 ℝ × V3 ℝ => (y.2, f y.1)) (-h) x0)] := by
  have hh' : -h < 0 := by linarith
  have e1 := hf 0 [x0.2.x, x0.2.y, x0.2.z] x0.1
  obtain ⟨s, hs, hev⟩ := C80_fixed_completes (o := o) (x0 := x0) (t1 := -h) (dt := -h) (solver := rkSolver tb interp err) (m := 1)
    (v := (x0.2, f x0.1)) hc hh' hh' he (by rw [ho]; simp only [secondOrder, e1]; rfl) (by simp)
  refine ⟨s, hs, ?_⟩
  obtain ⟨-, hch⟩ := C80_chain hf ho hc hh' (Or.inl ⟨-h, hh', hs⟩)
  obtain ⟨rest, h1, -, -, -, h5, -, -⟩ := C80_fixed hc hh' hh' hs
  obtain ⟨last, e1, -, e3⟩ := C80_fixed_times hc hh' hh' hs
  obtain ⟨rfl, hn, -, -⟩ := e3 hev
  have hn1 : s.num_steps = 1 := le_antisymm (h5 1 rfl) hn
  rw [hn1, h1] at e1
  rcases rest with _ | ⟨q, _ | ⟨q', rest⟩⟩
  · simp at e1
  · rw [h1] at hch ⊢
    have hq : q.1 = -h := by simpa using e1
    have := (List.isChain_pair.1 hch).2
    rw [hq, sub_zero] at this
    rw [← this, ← hq]
  · simp at e1

end

/-- C80, there and back is not the identity: one Euler step of length `h` and one back multiply the position by
`1 + h² mu / |r|³`, for every orbit and every step. -/
theorem C80_round_trip {o : OrbDynx ℝ (V3 ℝ × V3 ℝ)} {mu : ℝ} (ho : o.terms = secondOrder point_mass_grav)
    (hm : o.args "mu" = some mu) (he : o.event = none) (r v : V3 ℝ) {h ctol : ℝ} (hc : 0 ≤ ctol) (hh : 0 < h)
    (interp : ℝ → ℝ → V3 ℝ × V3 ℝ → V3 ℝ × V3 ℝ → ℝ → V3 ℝ × V3 ℝ)
    (err : ℝ → ℝ → V3 ℝ × V3 ℝ → V3 ℝ × V3 ℝ → V3 ℝ × V3 ℝ) :
    ∃ s1 y1 s2 y2, fixed_steps_any ctol o (r, v) h h (rkSolver eulerTb interp err) (some 1) = some (.ok s1) ∧
      s1.saved.getLast? = some (h, y1) ∧
      fixed_steps_any ctol o y1 (-h) (-h) (rkSolver eulerTb interp err) (some 1) = some (.ok s2) ∧
      s2.saved.getLast? = some (-h, y2) ∧ y2.1 = (1 + h ^ 2 * (mu / V3.norm r ^ 3)) • r := by
  have hf : IsField point_mass_grav o.args (fun p => (-(mu / V3.norm p ^ 3)) • p) :=
    fun t rest p => C41_point_mass_is_newton t mu _ o.args hm
  obtain ⟨s1, e1, e2⟩ := one_step_there (x0 := (r, v)) (tb := eulerTb) (interp := interp) (err := err) hf ho he hc hh
  obtain ⟨s2, e3, e4⟩ := one_step_back (x0 := rkStep eulerTb (fun y : V3 ℝ × V3 ℝ => (y.2, (-(mu / V3.norm y.1 ^ 3)) • y.1))
    h (r, v)) (tb := eulerTb) (interp := interp) (err := err) hf ho he hc hh
  refine ⟨s1, _, s2, _, e1, by rw [e2]; rfl, e3, by rw [e4]; rfl, ?_⟩
  show (r + (h * 1) • v) + (-h * 1) • (v + (h * 1) • ((-(mu / V3.norm r ^ 3)) • r)) = _
  ext <;> simp <;> ring

/-- A case: from the circular orbit of radius 1, a step of length 1 there and back ends at twice the distance. -/
example : ∃ s1 y1 s2 y2, fixed_steps_any (0 : ℝ) { terms := secondOrder point_mass_grav }
      ((⟨1, 0, 0⟩, ⟨0, 1, 0⟩) : V3 ℝ × V3 ℝ) 1 1 (rkSolver eulerTb (fun _ _ y _ _ => y) (fun _ _ y _ => y)) (some 1)
        = some (.ok s1) ∧ s1.saved.getLast? = some (1, y1) ∧
    fixed_steps_any (0 : ℝ) { terms := secondOrder point_mass_grav } y1 (-1) (-1)
      (rkSolver eulerTb (fun _ _ y _ _ => y) (fun _ _ y _ => y)) (some 1) = some (.ok s2) ∧
    s2.saved.getLast? = some (-1, y2) ∧ y2.1 = ⟨2, 0, 0⟩ := by
  obtain ⟨s1, y1, s2, y2, a, b, c, d, e⟩ := C80_round_trip (o := { terms := secondOrder point_mass_grav }) (mu := 1) rfl
    (by simp [defaultArgs]) rfl ⟨1, 0, 0⟩ ⟨0, 1, 0⟩ (le_refl (0 : ℝ)) one_pos (fun _ _ y _ _ => y) (fun _ _ y _ => y)
  refine ⟨s1, y1, s2, y2, a, b, c, d, e.trans ?_⟩
  have n1 : V3.norm (⟨1, 0, 0⟩ : V3 ℝ) = 1 := by simp [V3.norm, dot]
  rw [n1]
  ext <;> simp; norm_num

theorem Spec.Near.mono {δ δ' : ℝ} {p q : V3 ℝ × V3 ℝ} (h : Near δ p q) (hd : δ ≤ δ') : Near δ' p q :=
  ⟨h.1.trans hd, h.2.1.trans hd, h.2.2.1.trans hd, h.2.2.2.1.trans hd, h.2.2.2.2.1.trans hd, h.2.2.2.2.2.trans hd⟩

theorem HasDerivV.comp_add {r : ℝ → V3 ℝ} {v : V3 ℝ} {s T : ℝ} (h : HasDerivV r v (s + T)) : HasDerivV (fun t => r (t + T)) v s :=
  ⟨h.x.comp_add_const s T, h.y.comp_add_const s T, h.z.comp_add_const s T⟩

/-- C80, there and back with short steps: for any force that is smooth away from the centre and any trajectory on `[0, T]`,
`fixed_steps` to `T` in steps of `dt`, then from the state reached back to `-T` in steps of `-dt`, ends within
`C (dt + ctol + |β - 1|)` of the start. -/
theorem C80_there_and_back {acc : ℝ → State ℝ → Args ℝ → Except PyErr (V3 ℝ)} {r v : ℝ → V3 ℝ} {T A : ℝ}
    {o : OrbDynx ℝ (V3 ℝ × V3 ℝ)} (hf : SmoothForce acc o.args) (ho : o.terms = secondOrder acc) (he : o.event = none)
    (hT : 0 < T) (h0 : ∀ s ∈ Set.Icc 0 T, r s ≠ ⟨0, 0, 0⟩) (hr : ∀ s ∈ Set.Icc 0 T, HasDerivV r (v s) s)
    (hv : ∀ s ∈ Set.Icc 0 T, ∃ a rest, acc s ⟨r s, rest⟩ o.args = .ok a ∧ HasDerivV v a s) (hA : 0 ≤ A) :
    ∃ C δ, 0 ≤ C ∧ 0 < δ ∧ ∀ (tb : Tableau ℝ) (interp : ℝ → ℝ → V3 ℝ × V3 ℝ → V3 ℝ × V3 ℝ → ℝ → V3 ℝ × V3 ℝ)
      (err : ℝ → ℝ → V3 ℝ × V3 ℝ → V3 ℝ × V3 ℝ → V3 ℝ × V3 ℝ) (β dt ctol : ℝ) (m : ℕ), tb.rows ≠ [] →
      RowsOk A β tb.rows 1 → 0 ≤ ctol → 0 < dt → dt + ctol + |β - 1| ≤ δ → T ≤ m * dt →
      ∃ s1 y1 s2 y2, fixed_steps_any ctol o (r 0, v 0) T dt (rkSolver tb interp err) (some m) = some (.ok s1) ∧
        s1.saved.getLast? = some (T, y1) ∧
        fixed_steps_any ctol o y1 (-T) (-dt) (rkSolver tb interp err) (some m) = some (.ok s2) ∧
        s2.saved.getLast? = some (-T, y2) ∧ Near (C * (dt + ctol + |β - 1|)) y2 (r 0, v 0) := by
  obtain ⟨C1, h1, hC1, hh1, hcl1⟩ := C73_force (args := o.args) hf hT h0 hr hv hA
  have hmem : ∀ s ∈ Set.Icc (-T) 0, s + T ∈ Set.Icc 0 T := fun s hs => ⟨by linarith [hs.1], by linarith [hs.2]⟩
  obtain ⟨C2, h2, hC2, hh2, hcl2⟩ := C80_force (args := o.args) (r := fun t => r (t + T)) (v := fun t => v (t + T)) hf hT
    (fun s hs => h0 _ (hmem s hs)) (fun s hs => (hr _ (hmem s hs)).comp_add)
    (fun s hs => by
      obtain ⟨a, rest, e, hd⟩ := hv _ (hmem s hs)
      exact ⟨a, rest, by rw [hf.ok] at e ⊢; exact e, hd.comp_add⟩) hA
  have hk : ∀ x : V3 ℝ × V3 ℝ, ∃ k, secondOrder acc 0 x o.args = .ok k := fun x => by
    simp only [secondOrder, hf.ok]; exact ⟨_, rfl⟩
  refine ⟨C2 * (1 + C1), min h1 (h2 / (1 + C1)), by positivity, by positivity,
    fun tb interp err β dt ctol m hne hR hc hdt hle hm => ?_⟩
  have hle1 : dt + ctol + |β - 1| + 0 ≤ h1 := by rw [add_zero]; exact hle.trans (min_le_left _ _)
  have hle2 := hle.trans (min_le_right _ _)
  rw [le_div_iff₀ (by positivity)] at hle2
  obtain ⟨k, hk1⟩ := hk (r 0, v 0)
  obtain ⟨s1, y1, e1, e2, e3⟩ := C73_reaches hcl1 hT ho rfl he hk1 hne hR hc (near_self _) hdt hle1 hm interp err
  rw [add_zero] at e3
  obtain ⟨k', hk2⟩ := hk y1
  have hm' : (m : ℝ) * -dt ≤ -T := by rw [mul_neg]; linarith
  obtain ⟨s2, e4, hev⟩ := C80_fixed_completes (o := o) (x0 := y1) (t1 := -T) (dt := -dt) (solver := rkSolver tb interp err)
    (m := m) (v := k') hc (by linarith) (by linarith) he (by rw [ho]; exact hk2) hm'
  obtain ⟨rest, -, -, -, -, -, -, hlast⟩ := C80_fixed hc (by linarith) (by linarith) e4
  obtain ⟨y2, e5⟩ := hlast hev
  refine ⟨s1, y1, s2, y2, ?_, e2, e4, e5, ?_⟩
  · rw [(C80_forward (ctrl := (constantStepSize : Controller ℝ (V3 ℝ × V3 ℝ) ℝ)) hT hdt.le (some m) [] {} none (by simp)).1]
    exact e1
  · have := (hcl2 o tb interp err β ctol (C1 * (dt + ctol + |β - 1|)) y1 (some m) s2 ho rfl hne hR hc
      (by simpa only [zero_add] using e3)).1 (-dt) (by linarith) (by rw [neg_neg]; linarith) e4 (-T, y2) (List.mem_of_getLast? e5)
    have h3 := this.2.2
    rw [neg_neg] at h3
    simp only [neg_add_cancel] at h3
    exact h3.mono (by apply le_of_eq; ring)

/-- C80, there and back for the point mass: as close as wanted to the start with steps short enough. -/
theorem C80_there_and_back_kepler {mu T A : ℝ} {r v : V3 ℝ} {o : OrbDynx ℝ (V3 ℝ × V3 ℝ)}
    (ho : o.terms = secondOrder point_mass_grav) (hm : o.args "mu" = some mu) (he : o.event = none) (hmu : 0 < mu)
    (hh : angular_momentum r v ≠ ⟨0, 0, 0⟩) (hT : 0 < T) (hA : 0 ≤ A) {tb : Tableau ℝ} (hne : tb.rows ≠ [])
    (hR : RowsOk A 1 tb.rows 1) (interp : ℝ → ℝ → V3 ℝ × V3 ℝ → V3 ℝ × V3 ℝ → ℝ → V3 ℝ × V3 ℝ)
    (err : ℝ → ℝ → V3 ℝ × V3 ℝ → V3 ℝ × V3 ℝ → V3 ℝ × V3 ℝ) {ε : ℝ} (hε : 0 < ε) :
    ∃ δ > 0, ∀ dt ctol : ℝ, 0 < dt → 0 ≤ ctol → dt + ctol ≤ δ → ∀ m : ℕ, T ≤ m * dt →
      ∃ s1 y1 s2 y2, fixed_steps_any ctol o (r, v) T dt (rkSolver tb interp err) (some m) = some (.ok s1) ∧
        s1.saved.getLast? = some (T, y1) ∧
        fixed_steps_any ctol o y1 (-T) (-dt) (rkSolver tb interp err) (some m) = some (.ok s2) ∧
        s2.saved.getLast? = some (-T, y2) ∧ Near ε y2 (r, v) := by
  obtain ⟨e, h⟩ := C21_solves_two_body hmu hh
  obtain ⟨C, δ, hC, hδ, key⟩ := C80_there_and_back (r := fun t => (exactProp r v mu t).1) (v := fun t => (exactProp r v mu t).2)
    (smooth_point_mass hm) ho he hT (fun s _ => (h s (Set.mem_univ s)).1) (fun s _ => (h s (Set.mem_univ s)).2.1)
    (fun s _ => by
      obtain ⟨a, e1, e2⟩ := C21_acceleration_is_point_mass_grav hmu hh s [] o.args hm
      exact ⟨a, [], e1, e2⟩) hA
  refine ⟨min δ (ε / (C + 1)), by positivity, fun dt ctol hdt hc hle m hmT => ?_⟩
  obtain ⟨s1, y1, s2, y2, a1, a2, a3, a4, a5⟩ := key tb interp err 1 dt ctol m hne hR hc hdt
    (by simpa using hle.trans (min_le_left _ _)) hmT
  have e' : ((exactProp r v mu 0).1, (exactProp r v mu 0).2) = (r, v) := e
  rw [e'] at a1 a5
  refine ⟨s1, y1, s2, y2, a1, a2, a3, a4, a5.mono ?_⟩
  have hle2 := hle.trans (min_le_right _ _)
  rw [le_div_iff₀ (by positivity)] at hle2
  rw [sub_self, abs_zero, add_zero]
  nlinarith

/-- The hypotheses can be met: a circular orbit, Heun's method. -/
example : ∃ δ > 0, ∀ dt ctol : ℝ, 0 < dt → 0 ≤ ctol → dt + ctol ≤ δ → ∀ m : ℕ, 10 ≤ m * dt →
    ∃ s1 y1 s2 y2, fixed_steps_any ctol { terms := secondOrder point_mass_grav } ((⟨1, 0, 0⟩, ⟨0, 1, 0⟩) : V3 ℝ × V3 ℝ) 10 dt
        (rkSolver heun (fun _ _ y _ _ => y) (fun _ _ y _ => y)) (some m) = some (.ok s1) ∧
      s1.saved.getLast? = some (10, y1) ∧
      fixed_steps_any ctol { terms := secondOrder point_mass_grav } y1 (-10) (-dt)
        (rkSolver heun (fun _ _ y _ _ => y) (fun _ _ y _ => y)) (some m) = some (.ok s2) ∧
      s2.saved.getLast? = some (-10, y2) ∧ Near (1 / 1000) y2 (⟨1, 0, 0⟩, ⟨0, 1, 0⟩) :=
  C80_there_and_back_kepler rfl (by simp [defaultArgs]) rfl one_pos (by simp [angular_momentum, V3.cross]) (by norm_num)
    zero_le_one (by simp [heun]) heun_ok _ _ (by norm_num)

/-- Time reversal: the hypotheses of `C80_point_mass` can be met. -/
example (dt : ℝ) (m : ℕ) : fixed_steps_any (0 : ℝ) { terms := secondOrder point_mass_grav }
      ((⟨1, 0, 0⟩, -(⟨0, 1, 0⟩ : V3 ℝ)) : V3 ℝ × V3 ℝ) (-(10 : ℝ)) (-dt)
      (rkSolver heun (fun _ _ y _ _ => y) (fun _ _ y _ => y)) (some m)
    = (fixed_steps_any (0 : ℝ) { terms := secondOrder point_mass_grav } ((⟨1, 0, 0⟩, ⟨0, 1, 0⟩) : V3 ℝ × V3 ℝ) (10 : ℝ) dt
      (rkSolver heun (fun _ _ y _ _ => y) (fun _ _ y _ => y)) (some m)).map (Except.map backwards) := by
  have h := C80_point_mass (o := { terms := secondOrder point_mass_grav, args := defaultArgs }) (mu := 1) rfl
    (by simp [defaultArgs]) (Or.inl rfl) heun (interp := fun _ _ y _ _ => y) (err := fun _ _ y _ => y)
    (fun _ _ _ _ _ => rfl) (fun _ _ _ _ => rfl) (t1 := 10) (by norm_num) 0 dt (some m) ⟨1, 0, 0⟩ ⟨0, 1, 0⟩
  exact h

end Adx
