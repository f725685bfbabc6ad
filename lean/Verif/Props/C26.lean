import Verif.Props.C13

/-! # C26: every output row of `kepler` depends only on its own time

Again for any arithmetic. `batchWhileLoop` is JAX's batching rule: it runs the body on all lanes until
every lane has finished. -/

namespace Adx
variable {α : Type} [Add α] [Sub α] [Neg α] [Mul α] [Div α] [Pow α ℕ] [NatCast α] [JFun α]

/-- C26: the batched loop gives every lane the result of its own unbatched loop, whatever the mixture
of convergence speeds, and hangs exactly if some lane hangs. -/
theorem C26_batch_is_lanewise {σ : Type} (cond : σ → Bool) (body : σ → σ) (lanes : List σ) :
    batchWhileLoop cond body lanes = lanes.mapM (whileLoop cond body) :=
  batchWhileLoop_eq_mapM cond body lanes

theorem lane_eq (t alpha r0 sigma0 mu tol : α) (n : ℕ) :
    (whileLoop (fun s : α × Carry α => uniCond s.1 alpha r0 sigma0 mu tol n s.2)
      (fun s => (s.1, uniBody s.1 alpha r0 sigma0 mu s.2)) (t, uniInit t alpha mu tol)).map (·.2.2.1)
      = solve_kepler_uni t alpha r0 sigma0 mu tol n := by
  -- the lane carries its time along unchanged
  obtain ⟨k, hk, h, h1, h2⟩ := newton_loop (newtonUni t alpha r0 sigma0 mu)
    (fun x _ => JFun.lt tol (JFun.abs (kepler_equ_uni x alpha r0 sigma0 t mu))) n
    (uniStart t alpha mu) (uniStart t alpha mu + ℓ 2 * tol)
  have hit : ∀ j, (fun s : α × Carry α => (s.1, uniBody s.1 alpha r0 sigma0 mu s.2))^[j]
      (t, uniInit t alpha mu tol) = (t, (uniBody t alpha r0 sigma0 mu)^[j] (uniInit t alpha mu tol)) := by
    intro j
    induction j with
    | zero => rfl
    | succ j ih => rw [Function.iterate_succ_apply', ih, Function.iterate_succ_apply']
  have hbody : ∀ j, (uniBody t alpha r0 sigma0 mu)^[j] (uniInit t alpha mu tol)
      = (j, (newtonUni t alpha r0 sigma0 mu)^[j] (uniStart t alpha mu),
          prevOf (newtonUni t alpha r0 sigma0 mu) (uniStart t alpha mu)
            (uniStart t alpha mu + ℓ 2 * tol) j) := fun j =>
    newtonCarry_iterate (newtonUni t alpha r0 sigma0 mu) _ _ j
  have hl := whileLoop_of_iterate (fun s : α × Carry α => uniCond s.1 alpha r0 sigma0 mu tol n s.2)
    (fun s => (s.1, uniBody s.1 alpha r0 sigma0 mu s.2)) k (t, uniInit t alpha mu tol)
    (fun j hj => by
      rw [hit, hbody]
      simp only [uniCond, h1 j hj, Bool.true_and, decide_eq_true_eq]; omega)
    (by
      rw [hit, hbody]
      simp only [uniCond]
      rcases Nat.lt_or_ge k n with hkn | hkn
      · rw [h2 hkn]; rfl
      · simp [Nat.not_lt.2 hkn])
  rw [hl, hit, hbody]
  have h' : whileLoop (uniCond t alpha r0 sigma0 mu tol n)
      (uniBody t alpha r0 sigma0 mu) (uniInit t alpha mu tol) = _ := h
  simp only [solve_kepler_uni, uniRun, h', Option.map_some]

/-- C26: the vectorised root search is the scalar one on every entry of `ts`. -/
theorem C26_vmapSolve (ts : List α) (alpha r0 sigma0 mu : α) :
    vmapSolve ts alpha r0 sigma0 mu
      = ts.mapM fun t => solve_kepler_uni t alpha r0 sigma0 mu := by
  unfold vmapSolve
  rw [batchWhileLoop_eq_mapM]
  induction ts with
  | nil => rfl
  | cons t ts ih =>
    simp only [List.map_cons, List.mapM_cons]
    rw [← ih, ← lane_eq]
    cases whileLoop (fun s : α × Carry α => uniCond s.1 alpha r0 sigma0 mu defaultTol 50 s.2)
      (fun s => (s.1, uniBody s.1 alpha r0 sigma0 mu s.2)) (t, uniInit t alpha mu defaultTol) with
    | none => rfl
    | some c =>
      cases List.mapM (whileLoop (fun s : α × Carry α => uniCond s.1 alpha r0 sigma0 mu defaultTol 50 s.2)
        (fun s => (s.1, uniBody s.1 alpha r0 sigma0 mu s.2)))
        (List.map (fun t => (t, uniInit t alpha mu defaultTol)) ts) with
      | none => rfl
      | some cs => rfl

/-- The value the root search returns (it always returns one, C13). -/
def chiOf (t alpha r0 sigma0 mu : α) : α :=
  (solve_kepler_uni t alpha r0 sigma0 mu).getD (uniStart t alpha mu)

theorem solve_eq_chiOf (t alpha r0 sigma0 mu : α) :
    solve_kepler_uni t alpha r0 sigma0 mu = some (chiOf t alpha r0 sigma0 mu) := by
  obtain ⟨_, _, _, h, _⟩ := C13_uni t alpha r0 sigma0 mu defaultTol 50
  simp [chiOf, h]

/-- The row `kepler` returns for one time. -/
def keplerRow (r0_vec v0_vec : V3 α) (mu t : α) : V3 α × V3 α :=
  let r0 := V3.norm r0_vec
  let alpha := ℓ 1 / semimajor_axis r0 (V3.norm v0_vec) mu
  let sigma0 := sigma_fn r0_vec v0_vec mu
  keplerStep (chiOf t (JFun.item alpha) (JFun.item r0) (JFun.item sigma0) mu) alpha r0 sigma0 r0_vec v0_vec mu

theorem kepler_eq_map (ts : List α) (r0_vec v0_vec : V3 α) (mu : α) :
    kepler ts r0_vec v0_vec mu
      = some (ts.map fun t => (keplerRow r0_vec v0_vec mu t).1,
              ts.map fun t => (keplerRow r0_vec v0_vec mu t).2) := by
  simp only [kepler, C26_vmapSolve, solve_eq_chiOf]
  have : ∀ (f : α → α) (l : List α), (l.mapM fun t => some (f t)) = some (l.map f) := by
    intro f l
    induction l with
    | nil => rfl
    | cons a l ih => simp only [List.mapM_cons, ih]; rfl
  rw [this]
  simp only [Option.map_some, List.map_map]
  rfl

/-- C26: `kepler` always returns, with one row per entry of `ts`. -/
theorem C26_one_row_per_time (ts : List α) (r0_vec v0_vec : V3 α) (mu : α) :
    ∃ rs vs, kepler ts r0_vec v0_vec mu = some (rs, vs) ∧ rs.length = ts.length ∧
      vs.length = ts.length :=
  ⟨_, _, kepler_eq_map ts r0_vec v0_vec mu, by simp, by simp⟩

/-- C26: row `i` of a batched call is the only row of the call with `ts = [ts[i]]`. -/
theorem C26_row_independent (ts : List α) (r0_vec v0_vec : V3 α) (mu : α) (rs vs : List (V3 α))
    (h : kepler ts r0_vec v0_vec mu = some (rs, vs)) (i : ℕ) (t : α) (ht : ts[i]? = some t) :
    ∃ r v, rs[i]? = some r ∧ vs[i]? = some v ∧
      kepler [t] r0_vec v0_vec mu = some ([r], [v]) := by
  rw [kepler_eq_map] at h
  obtain ⟨rfl, rfl⟩ := Prod.mk.inj (Option.some.inj h)
  refine ⟨_, _, by rw [List.getElem?_map, ht]; rfl, by rw [List.getElem?_map, ht]; rfl, ?_⟩
  rw [kepler_eq_map]; rfl

/-- C26: splitting or concatenating the list of times does not matter. -/
theorem C26_append (ts us : List α) (r0_vec v0_vec : V3 α) (mu : α) :
    ∃ r1 v1 r2 v2, kepler ts r0_vec v0_vec mu = some (r1, v1) ∧
      kepler us r0_vec v0_vec mu = some (r2, v2) ∧
      kepler (ts ++ us) r0_vec v0_vec mu = some (r1 ++ r2, v1 ++ v2) :=
  ⟨_, _, _, _, kepler_eq_map _ _ _ _, kepler_eq_map _ _ _ _, by rw [kepler_eq_map]; simp⟩

/-- Lanes of different speed: counting down from 3 and from 5 in one batch. -/
example : batchWhileLoop (fun n : ℕ => decide (0 < n)) (· - 1) [3, 5, 0] = some [0, 0, 0] := by
  rw [C26_batch_is_lanewise]
  have h : ∀ n : ℕ, whileLoop (fun n : ℕ => decide (0 < n)) (· - 1) n = some 0 := by
    intro n
    induction n with
    | zero => rw [whileLoop]; simp
    | succ n ih => rw [whileLoop]; simpa using ih
  simp [List.mapM_cons, h]

end Adx
