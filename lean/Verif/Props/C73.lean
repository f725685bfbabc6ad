import Verif.Lemmas.Converge
import Verif.Props.C21
import Mathlib.Analysis.SpecialFunctions.Sqrt

/-! # C73: the Cowell propagation with a Runge–Kutta solver converges to the trajectory

In exact arithmetic; the solver is `rkSolver` (`Model/RungeKutta.lean`) with any lower triangular tableau. The bound is of
first order in the step, whatever the order of the tableau; it contains the defect `|β - 1|` of the sum of the weights,
which is not zero for coefficients written with finitely many digits. -/

namespace Adx
open V3 Spec

/-- Every entry saved by `fixed_steps` and `adaptive_steps` for this vector field, started within `η` of the trajectory
`(r, v)`, is within `C · (step + defect of the weights + η)` of the trajectory at the time of the entry, provided this sum is
below `h0`: for every tableau with absolute row sums up to `A`, every interpolation and error estimate, every event, every
iteration limit, and in the case of `adaptive_steps` every valid controller. -/
def StepsClose (terms : ℝ → V3 ℝ × V3 ℝ → Args ℝ → Except PyErr (V3 ℝ × V3 ℝ)) (args : Args ℝ) (r v : ℝ → V3 ℝ)
    (T A C h0 : ℝ) : Prop :=
  ∀ (o : OrbDynx ℝ (V3 ℝ × V3 ℝ)) (tb : Tableau ℝ) (interp : ℝ → ℝ → V3 ℝ × V3 ℝ → V3 ℝ × V3 ℝ → ℝ → V3 ℝ × V3 ℝ)
    (err : ℝ → ℝ → V3 ℝ × V3 ℝ → V3 ℝ × V3 ℝ → V3 ℝ × V3 ℝ) (β ctol η : ℝ) (x0 : V3 ℝ × V3 ℝ) (ms : Option ℕ)
    (s : Sol ℝ (V3 ℝ × V3 ℝ)),
    o.terms = terms → o.args = args → tb.rows ≠ [] → RowsOk A β tb.rows 1 → 0 ≤ ctol → Near η x0 (r 0, v 0) →
    (∀ dt, 0 < dt → dt + ctol + |β - 1| + η ≤ h0 →
      fixed_steps ctol o x0 T dt (rkSolver tb interp err) ms = some (.ok s) →
      ∀ p ∈ s.saved, 0 ≤ p.1 ∧ p.1 ≤ T ∧ Near (C * (dt + ctol + |β - 1| + η)) p.2 (r p.1, v p.1)) ∧
    (∀ (γ : Type) (ctrl : Controller ℝ (V3 ℝ × V3 ℝ) γ) (P : γ → Prop) (H : ℝ), ctrl.Valid none P → 0 ≤ H →
      H + |β - 1| + η ≤ h0 →
      adaptive_steps ctol o x0 T (rkSolver tb interp err) ctrl ms = some (.ok s) →
      s.saved.IsChain (fun p q => q.1 - p.1 ≤ H) →
      ∀ p ∈ s.saved, 0 ≤ p.1 ∧ p.1 ≤ T ∧ Near (C * (H + |β - 1| + η)) p.2 (r p.1, v p.1))

/-- The steps of `fixed_steps` are not longer than `dt + ctol`. -/
theorem fixed_chain {Y σ : Type} {o : OrbDynx ℝ Y} {x0 : Y} {t1 dt ctol : ℝ} {solver : Solver ℝ Y σ} {ms : Option ℕ}
    {s : Sol ℝ Y} (hc : 0 ≤ ctol) (h01 : 0 < t1) (hdt : 0 < dt)
    (h : fixed_steps ctol o x0 t1 dt solver ms = some (.ok s)) :
    s.saved.IsChain (fun p q => q.1 - p.1 ≤ dt + ctol) := by
  obtain ⟨last, e1, e2, -⟩ := C45_fixed_times hc h01 hdt h
  have h0 : (fixedCall o x0 t1 dt ms solver).t0 = 0 := Nat.cast_zero
  have h01' : (fixedCall o x0 t1 dt ms solver).t0 < (fixedCall o x0 t1 dt ms solver).t1 := by
    rw [h0]; exact h01
  obtain ⟨f, g, first, k, hf, hg, hi, e1', hr, hm, e2', e3, e4⟩ :=
    steps_run (c := fixedCall o x0 t1 dt ms solver) rfl rfl rfl rfl hc h01' (constant_valid hdt) h
  have hfirst : first = (0 + dt, dt) := by
    simp only [fixedCall, constantStepSize, Except.ok.injEq, Nat.cast_zero] at hi
    exact hi.symm
  subst hfirst
  obtain ⟨g1, g2, -, g4⟩ := fixed_core (o := o) (x0 := x0) (solver := solver) (ms := ms) (f := f)
    (g := g) hdt hc h01 k hr
  set tk := (coreAt ctol (fixedCall o x0 t1 dt ms solver) f g (0 + dt, dt) k).tprev with htk
  have hmap : s.saved.map Prod.fst = ((List.range k).map fun i : ℕ => (i : ℝ) * dt) ++ [tk] := by
    rw [e1', List.map_reverse, h0, show (fixedCall o x0 t1 dt ms solver).y0 = x0 from rfl, g4]
    simp [htk]
  have hlast : tk ≤ k * dt + ctol := by
    rcases g1 with g1 | g1
    · rw [g1]; linarith
    · rw [g1]; exact (g2 g1).2.2
  have key : (s.saved.map Prod.fst).IsChain (fun a b => b - a ≤ dt + ctol) := by
    rw [hmap, List.isChain_append]
    refine ⟨?_, List.isChain_singleton _, ?_⟩
    · rw [List.isChain_map, List.isChain_iff_getElem]
      intro i hi
      simp only [List.getElem_range]
      push_cast
      linarith
    · intro x hx y hy
      simp only [List.head?_cons, Option.mem_def, Option.some.injEq] at hy
      subst hy
      rw [Option.mem_def, List.getLast?_map] at hx
      cases k with
      | zero => simp at hx
      | succ k =>
        rw [List.range_succ, List.getLast?_append] at hx
        simp at hx
        subst hx
        push_cast at hlast
        linarith
  rw [List.isChain_map] at key
  exact key

/-- C73, for every continuously differentiable acceleration depending on the position only: `Ω` is the open set of
positions on which it is smooth, and the trajectory stays in it. -/
theorem C73_general {terms : ℝ → V3 ℝ × V3 ℝ → Args ℝ → Except PyErr (V3 ℝ × V3 ℝ)} {args : Args ℝ} {a : V3 ℝ → V3 ℝ}
    {Ω : Set (ℝ × ℝ × ℝ)} {r v : ℝ → V3 ℝ} {T : ℝ} (hterm : ∀ t y, terms t y args = .ok (y.2, a y.1)) (hΩ : IsOpen Ω)
    (ha : ContDiffOn ℝ 1 (fun p => toP (a (ofP p))) Ω) (hT : 0 < T) (hin : ∀ s ∈ Set.Icc 0 T, toP (r s) ∈ Ω)
    (hr : ∀ s ∈ Set.Icc 0 T, HasDerivV r (v s) s) (hv : ∀ s ∈ Set.Icc 0 T, HasDerivV v (a (r s)) s) {A : ℝ} (hA : 0 ≤ A) :
    ∃ C h0, 0 ≤ C ∧ 0 < h0 ∧ StepsClose terms args r v T A C h0 := by
  obtain ⟨C, h0, hC, hh0, h⟩ := converge hΩ ha hT hin hr hv hA
  refine ⟨C, h0, hC, hh0, ?_⟩
  intro o tb interp err β ctol η x0 ms s ho hoa hne hR hc hx
  have ht : ∀ t y, o.terms t y o.args = .ok (y.2, a y.1) := by intro t y; rw [ho, hoa]; exact hterm t y
  refine ⟨fun dt hdt hle hrun => ?_, fun γ ctrl P H hval hH hle hrun hch => ?_⟩
  · exact h (fixedCall o x0 T dt ms (rkSolver tb interp err)) (· = dt) tb interp err β (dt + ctol) ctol η s rfl rfl rfl
      rfl rfl hne hR Nat.cast_zero rfl hx ht hc (constant_valid hdt) (by linarith) hle hrun (fixed_chain hc hT hdt hrun)
  · exact h (adaptiveCall o x0 T ms (rkSolver tb interp err) ctrl) P tb interp err β H ctol η s rfl rfl rfl
      rfl rfl hne hR Nat.cast_zero rfl hx ht hc hval hH hle hrun hch

/-! ## The force models of the library -/

theorem sq_pos_of_ne {p : ℝ × ℝ × ℝ} (h : p ≠ 0) : 0 < p.1 ^ 2 + p.2.1 ^ 2 + p.2.2 ^ 2 := by
  by_contra hn
  apply h
  have h1 := sq_nonneg p.1; have h2 := sq_nonneg p.2.1; have h3 := sq_nonneg p.2.2
  refine Prod.ext ?_ (Prod.ext ?_ ?_) <;> simp only [Prod.fst_zero, Prod.snd_zero] <;>
    exact pow_eq_zero_iff (two_ne_zero) |>.1 (by linarith)

theorem norm_ofP (p : ℝ × ℝ × ℝ) : V3.norm (ofP p) = Real.sqrt (p.1 ^ 2 + p.2.1 ^ 2 + p.2.2 ^ 2) :=
  (radius_eq_norm _).symm

theorem contDiffOn_norm : ContDiffOn ℝ 1 (fun p : ℝ × ℝ × ℝ => V3.norm (ofP p)) {p | p ≠ 0} := by
  simp only [norm_ofP]
  exact ContDiffOn.sqrt (by fun_prop) fun p hp => (sq_pos_of_ne hp).ne'

theorem norm_ofP_ne {p : ℝ × ℝ × ℝ} (h : p ≠ 0) : V3.norm (ofP p) ≠ 0 := by
  rw [norm_ofP]; exact (Real.sqrt_pos.2 (sq_pos_of_ne h)).ne'

theorem toP_ne {a : V3 ℝ} (h : a ≠ ⟨0, 0, 0⟩) : toP a ≠ 0 := by
  intro e
  apply h
  have e1 := congrArg Prod.fst e; have e2 := congrArg (fun p => p.2.1) e; have e3 := congrArg (fun p => p.2.2) e
  exact V3.ext e1 e2 e3

/-- The values of a force that depends on the position only. -/
def accOf (f : ℝ → State ℝ → Args ℝ → Except PyErr (V3 ℝ)) (args : Args ℝ) (p : V3 ℝ) : V3 ℝ :=
  match f 0 ⟨p, []⟩ args with
  | .ok a => a
  | .error _ => ⟨0, 0, 0⟩

/-- A force that succeeds, depends on the position only and is continuously differentiable away from the centre. -/
structure SmoothForce (f : ℝ → State ℝ → Args ℝ → Except PyErr (V3 ℝ)) (args : Args ℝ) : Prop where
  /-- value -/
  ok : ∀ t x, f t x args = .ok (accOf f args x.pos)
  /-- smooth -/
  smooth : ContDiffOn ℝ 1 (fun p => toP (accOf f args (ofP p))) {p | p ≠ 0}

theorem SmoothForce.add {f g : ℝ → State ℝ → Args ℝ → Except PyErr (V3 ℝ)} {args : Args ℝ} (hf : SmoothForce f args)
    (hg : SmoothForce g args) : SmoothForce (addAcc f g) args := by
  have e : ∀ t x, addAcc f g t x args = .ok (accOf f args x.pos + accOf g args x.pos) := by
    intro t x; simp only [addAcc, hf.ok, hg.ok]; rfl
  have e' : ∀ p, accOf (addAcc f g) args p = accOf f args p + accOf g args p := by
    intro p; rw [accOf, e]
  exact ⟨fun t x => by rw [e, e'], by simp only [e']; exact hf.smooth.add hg.smooth⟩

section
variable {mu J2 J3 J4 R : ℝ} {args : Args ℝ} (hm : args "mu" = some mu)
include hm

theorem smooth_point_mass : SmoothForce point_mass_grav args := by
  have e : ∀ p, accOf point_mass_grav args p = (-(mu / V3.norm p ^ 3)) • p := by
    intro p; rw [accOf, C41_point_mass_is_newton 0 mu _ args hm]
  refine ⟨fun t x => by rw [e, C41_point_mass_is_newton t mu _ args hm], ?_⟩
  simp only [e]
  have hk : ContDiffOn ℝ 1 (fun p : ℝ × ℝ × ℝ => -(mu / V3.norm (ofP p) ^ 3)) {p | p ≠ 0} :=
      (contDiffOn_const.div (contDiffOn_norm.pow 3) fun p hp => pow_ne_zero 3 (norm_ofP_ne hp)).neg
  exact (hk.mul (f := fun p => -(mu / V3.norm (ofP p) ^ 3)) (g := fun p => p.1) (by fun_prop)).prodMk
      ((hk.mul (g := fun p => p.2.1) (by fun_prop)).prodMk (hk.mul (g := fun p => p.2.2) (by fun_prop)))

variable (hR : args "R_eq" = some R)
include hR

theorem smooth_j2 (h2 : args "J2" = some J2) : SmoothForce j2_acc args := by
  refine ⟨fun t x => by simp only [accOf, j2_acc, Args.get, hm, h2, hR, bind, Except.bind, pure, Except.pure], ?_⟩
  simp only [accOf, j2_acc, Args.get, hm, h2, hR, bind, Except.bind, pure, Except.pure, toP]
  have hn := contDiffOn_norm
  have h0 : ∀ p ∈ {p : ℝ × ℝ × ℝ | p ≠ 0}, V3.norm (ofP p) ≠ 0 := fun p hp => norm_ofP_ne hp
  have hx : ContDiffOn ℝ 1 (fun p : ℝ × ℝ × ℝ => (ofP p).x) {p | p ≠ 0} := contDiff_fst.contDiffOn
  have hy : ContDiffOn ℝ 1 (fun p : ℝ × ℝ × ℝ => (ofP p).y) {p | p ≠ 0} := contDiff_snd.fst.contDiffOn
  have hz : ContDiffOn ℝ 1 (fun p : ℝ × ℝ × ℝ => (ofP p).z) {p | p ≠ 0} := contDiff_snd.snd.contDiffOn
  have hq : ContDiffOn ℝ 1 (fun p : ℝ × ℝ × ℝ => ((ofP p).z / V3.norm (ofP p)) ^ 2) {p | p ≠ 0} := (hz.div hn h0).pow 2
  have hf : ContDiffOn ℝ 1 (fun p : ℝ × ℝ × ℝ => -(ℓ 3 / ℓ 2) * mu * J2 * R ^ 2 / V3.norm (ofP p) ^ 5) {p | p ≠ 0} :=
    contDiffOn_const.div (hn.pow 5) fun p hp => pow_ne_zero 5 (h0 p hp)
  have h51 : ContDiffOn ℝ 1 (fun p : ℝ × ℝ × ℝ => ℓ 1 - ℓ 5 * ((ofP p).z / V3.norm (ofP p)) ^ 2) {p | p ≠ 0} :=
    contDiffOn_const.sub (contDiffOn_const.mul hq)
  have h53 : ContDiffOn ℝ 1 (fun p : ℝ × ℝ × ℝ => ℓ 3 - ℓ 5 * ((ofP p).z / V3.norm (ofP p)) ^ 2) {p | p ≠ 0} :=
    contDiffOn_const.sub (contDiffOn_const.mul hq)
  exact ((hf.mul hx).mul h51).prodMk (((hf.mul hy).mul h51).prodMk ((hf.mul hz).mul h53))

theorem smooth_j3 (h3 : args "J3" = some J3) : SmoothForce j3_acc args := by
  refine ⟨fun t x => by simp only [accOf, j3_acc, Args.get, hm, h3, hR, bind, Except.bind, pure, Except.pure], ?_⟩
  simp only [accOf, j3_acc, Args.get, hm, h3, hR, bind, Except.bind, pure, Except.pure, toP]
  have hn := contDiffOn_norm
  have h0 : ∀ p ∈ {p : ℝ × ℝ × ℝ | p ≠ 0}, V3.norm (ofP p) ≠ 0 := fun p hp => norm_ofP_ne hp
  have hx : ContDiffOn ℝ 1 (fun p : ℝ × ℝ × ℝ => (ofP p).x) {p | p ≠ 0} := contDiff_fst.contDiffOn
  have hy : ContDiffOn ℝ 1 (fun p : ℝ × ℝ × ℝ => (ofP p).y) {p | p ≠ 0} := contDiff_snd.fst.contDiffOn
  have hz : ContDiffOn ℝ 1 (fun p : ℝ × ℝ × ℝ => (ofP p).z) {p | p ≠ 0} := contDiff_snd.snd.contDiffOn
  have hq : ContDiffOn ℝ 1 (fun p : ℝ × ℝ × ℝ => (ofP p).z ^ 3 / V3.norm (ofP p) ^ 2) {p | p ≠ 0} :=
    (hz.pow 3).div (hn.pow 2) fun p hp => pow_ne_zero 2 (h0 p hp)
  have hf : ContDiffOn ℝ 1 (fun p : ℝ × ℝ × ℝ => -(ℓ 5 / ℓ 2) * mu * J3 * R ^ 3 / V3.norm (ofP p) ^ 7) {p | p ≠ 0} :=
    contDiffOn_const.div (hn.pow 7) fun p hp => pow_ne_zero 7 (h0 p hp)
  have h51 : ContDiffOn ℝ 1 (fun p : ℝ × ℝ × ℝ => ℓ 3 * (ofP p).z - ℓ 7 * ((ofP p).z ^ 3 / V3.norm (ofP p) ^ 2)) {p | p ≠ 0} :=
    (contDiffOn_const.mul hz).sub (contDiffOn_const.mul hq)
  have h53 : ContDiffOn ℝ 1 (fun p : ℝ × ℝ × ℝ => ℓ 6 * (ofP p).z ^ 2 - ℓ 7 * ((ofP p).z ^ 3 / V3.norm (ofP p) ^ 2) * (ofP p).z
      - ℓ 3 / ℓ 5 * V3.norm (ofP p) ^ 2) {p | p ≠ 0} :=
    ((contDiffOn_const.mul (hz.pow 2)).sub ((contDiffOn_const.mul hq).mul hz)).sub (contDiffOn_const.mul (hn.pow 2))
  exact ((hf.mul hx).mul h51).prodMk (((hf.mul hy).mul h51).prodMk (hf.mul h53))

theorem smooth_j4 (h4 : args "J4" = some J4) : SmoothForce j4_acc args := by
  refine ⟨fun t x => by simp only [accOf, j4_acc, Args.get, hm, h4, hR, bind, Except.bind, pure, Except.pure], ?_⟩
  simp only [accOf, j4_acc, Args.get, hm, h4, hR, bind, Except.bind, pure, Except.pure, toP]
  have hn := contDiffOn_norm
  have h0 : ∀ p ∈ {p : ℝ × ℝ × ℝ | p ≠ 0}, V3.norm (ofP p) ≠ 0 := fun p hp => norm_ofP_ne hp
  have hx : ContDiffOn ℝ 1 (fun p : ℝ × ℝ × ℝ => (ofP p).x) {p | p ≠ 0} := contDiff_fst.contDiffOn
  have hy : ContDiffOn ℝ 1 (fun p : ℝ × ℝ × ℝ => (ofP p).y) {p | p ≠ 0} := contDiff_snd.fst.contDiffOn
  have hz : ContDiffOn ℝ 1 (fun p : ℝ × ℝ × ℝ => (ofP p).z) {p | p ≠ 0} := contDiff_snd.snd.contDiffOn
  have hq : ContDiffOn ℝ 1 (fun p : ℝ × ℝ × ℝ => ((ofP p).z / V3.norm (ofP p)) ^ 2) {p | p ≠ 0} := (hz.div hn h0).pow 2
  have hf : ContDiffOn ℝ 1 (fun p : ℝ × ℝ × ℝ => ℓ 15 / ℓ 8 * mu * J4 * R ^ 4 / V3.norm (ofP p) ^ 7) {p | p ≠ 0} :=
    contDiffOn_const.div (hn.pow 7) fun p hp => pow_ne_zero 7 (h0 p hp)
  have h51 : ContDiffOn ℝ 1 (fun p : ℝ × ℝ × ℝ => ℓ 1 - ℓ 14 * ((ofP p).z / V3.norm (ofP p)) ^ 2
      + ℓ 21 * (((ofP p).z / V3.norm (ofP p)) ^ 2) ^ 2) {p | p ≠ 0} :=
    (contDiffOn_const.sub (contDiffOn_const.mul hq)).add (contDiffOn_const.mul (hq.pow 2))
  have h53 : ContDiffOn ℝ 1 (fun p : ℝ × ℝ × ℝ => ℓ 5 - ℓ 70 * ((ofP p).z / V3.norm (ofP p)) ^ 2 / ℓ 3
      + ℓ 21 * (((ofP p).z / V3.norm (ofP p)) ^ 2) ^ 2) {p | p ≠ 0} :=
    (contDiffOn_const.sub ((contDiffOn_const.mul hq).div_const _)).add (contDiffOn_const.mul (hq.pow 2))
  exact ((hf.mul hx).mul h51).prodMk (((hf.mul hy).mul h51).prodMk ((hf.mul hz).mul h53))

end

/-- C73, for any force that is smooth away from the centre, such as the sums of the library's. -/
theorem C73_force {f : ℝ → State ℝ → Args ℝ → Except PyErr (V3 ℝ)} {args : Args ℝ} {r v : ℝ → V3 ℝ} {T A : ℝ}
    (hf : SmoothForce f args) (hT : 0 < T) (h0 : ∀ s ∈ Set.Icc 0 T, r s ≠ ⟨0, 0, 0⟩)
    (hr : ∀ s ∈ Set.Icc 0 T, HasDerivV r (v s) s)
    (hv : ∀ s ∈ Set.Icc 0 T, ∃ a rest, f s ⟨r s, rest⟩ args = .ok a ∧ HasDerivV v a s) (hA : 0 ≤ A) :
    ∃ C h0, 0 ≤ C ∧ 0 < h0 ∧ StepsClose (secondOrder f) args r v T A C h0 := by
  refine C73_general (a := accOf f args) (Ω := {p | p ≠ 0}) (fun t y => ?_) isOpen_ne hf.smooth hT
    (fun s hs => toP_ne (h0 s hs)) hr (fun s hs => ?_) hA
  · simp only [secondOrder, hf.ok]; rfl
  · obtain ⟨a, rest, e, hd⟩ := hv s hs
    rw [hf.ok, Except.ok.injEq] at e
    rw [e]; exact hd

/-- C73, point mass: every trajectory of the two-body problem away from the centre. -/
theorem C73_point_mass {mu T A : ℝ} {args : Args ℝ} {r v : ℝ → V3 ℝ} (hm : args "mu" = some mu) (hT : 0 < T)
    (h : KeplerTrajectory mu (Set.Icc 0 T) r v) (hA : 0 ≤ A) :
    ∃ C h0, 0 ≤ C ∧ 0 < h0 ∧ StepsClose (secondOrder point_mass_grav) args r v T A C h0 :=
  C73_force (smooth_point_mass hm) hT h.avoid h.pos
    (fun s hs => ⟨_, [], C41_point_mass_is_newton s mu _ args hm, h.vel s hs⟩) hA

/-- C73, from any initial state with `mu > 0` and non-zero angular momentum: the propagation is close to `exactProp`, the
motion `kepler` computes (C21–C23). -/
theorem C73_kepler {mu T A : ℝ} {args : Args ℝ} {r v : V3 ℝ} (hm : args "mu" = some mu) (hmu : 0 < mu)
    (hh : angular_momentum r v ≠ ⟨0, 0, 0⟩) (hT : 0 < T) (hA : 0 ≤ A) :
    exactProp r v mu 0 = (r, v) ∧ ∃ C h0, 0 ≤ C ∧ 0 < h0 ∧
      StepsClose (secondOrder point_mass_grav) args (fun t => (exactProp r v mu t).1) (fun t => (exactProp r v mu t).2)
        T A C h0 := by
  obtain ⟨e, h⟩ := C21_solves_two_body hmu hh
  refine ⟨e, C73_point_mass hm hT ⟨fun s _ => (h s (Set.mem_univ s)).1, fun s _ => (h s (Set.mem_univ s)).2.1, fun s _ => ?_⟩ hA⟩
  obtain ⟨a, e1, e2⟩ := C21_acceleration_is_point_mass_grav hmu hh s [] args hm
  rw [C41_point_mass_is_newton s mu _ args hm, Except.ok.injEq] at e1
  rw [← e1] at e2
  exact e2

/-- The force of the full zonal model, assembled as in the docstrings. -/
noncomputable def zonalForce : ℝ → State ℝ → Args ℝ → Except PyErr (V3 ℝ) :=
  addAcc (addAcc (addAcc point_mass_grav j2_acc) j3_acc) j4_acc

/-- C73, point mass with `J2`, `J3` and `J4`: every trajectory away from the centre. -/
theorem C73_zonal {mu J2 J3 J4 R T A : ℝ} {args : Args ℝ} {r v : ℝ → V3 ℝ} (hm : args "mu" = some mu)
    (h2 : args "J2" = some J2) (h3 : args "J3" = some J3) (h4 : args "J4" = some J4) (hR : args "R_eq" = some R)
    (hT : 0 < T) (h : ZonalTrajectory args (Set.Icc 0 T) r v) (hA : 0 ≤ A) :
    ∃ C h0, 0 ≤ C ∧ 0 < h0 ∧ StepsClose (secondOrder zonalForce) args r v T A C h0 := by
  refine C73_force ((((smooth_point_mass hm).add (smooth_j2 hm hR h2)).add (smooth_j3 hm hR h3)).add
    (smooth_j4 hm hR h4)) hT h.avoid h.pos (fun s hs => ?_) hA
  obtain ⟨a0, a2, a3, a4, rest, e0, e2, e3, e4, hd⟩ := h.vel s hs
  exact ⟨_, rest, by simp only [zonalForce, addAcc, e0, e2, e3, e4]; rfl, hd⟩

/-! ## Consequences -/

section
variable {terms : ℝ → V3 ℝ × V3 ℝ → Args ℝ → Except PyErr (V3 ℝ × V3 ℝ)} {args : Args ℝ} {r v : ℝ → V3 ℝ} {T A C h0 : ℝ}

/-- C73, `fixed_steps`: a run without event and with enough iterations comes back, ends at `T`, and its last state is within
the bound of the trajectory, if the start is within `η` of it; so for weights of sum 1 it is as close as wanted if `dt` and `ctol` are small enough. -/
theorem C73_reaches (h : StepsClose terms args r v T A C h0) (hT : 0 < T) {o : OrbDynx ℝ (V3 ℝ × V3 ℝ)}
    (ho : o.terms = terms) (hoa : o.args = args) (he : o.event = none) {k x0 : V3 ℝ × V3 ℝ}
    (hk : terms 0 x0 args = .ok k) {tb : Tableau ℝ} {β dt ctol η : ℝ} (hne : tb.rows ≠ [])
    (hR : RowsOk A β tb.rows 1) (hc : 0 ≤ ctol) (hx : Near η x0 (r 0, v 0)) (hdt : 0 < dt) (hle : dt + ctol + |β - 1| + η ≤ h0) {m : ℕ} (hm : T ≤ m * dt)
    (interp : ℝ → ℝ → V3 ℝ × V3 ℝ → V3 ℝ × V3 ℝ → ℝ → V3 ℝ × V3 ℝ)
    (err : ℝ → ℝ → V3 ℝ × V3 ℝ → V3 ℝ × V3 ℝ → V3 ℝ × V3 ℝ) :
    ∃ s y, fixed_steps ctol o x0 T dt (rkSolver tb interp err) (some m) = some (.ok s) ∧
      s.saved.getLast? = some (T, y) ∧ Near (C * (dt + ctol + |β - 1| + η)) y (r T, v T) := by
  obtain ⟨s, hs, hev⟩ := C45_fixed_completes (o := o) (x0 := x0) (solver := rkSolver tb interp err) hc hT hdt he
    (v := k) (by rw [ho, hoa]; exact hk) hm
  obtain ⟨rest, -, -, -, -, -, -, hlast⟩ := C45_fixed hc hT hdt hs
  obtain ⟨y, hy⟩ := hlast hev
  refine ⟨s, y, hs, hy, ?_⟩
  have := ((h o tb interp err β ctol η x0 (some m) s ho hoa hne hR hc hx).1 dt hdt hle hs (T, y) (List.mem_of_getLast? hy)).2.2
  exact this

/-- C73, `to_final`: it returns a single state, within the bound of the trajectory at its time, if no kept step is longer
than `H` (read off the step-saving run with the same settings). -/
theorem C73_to_final (h : StepsClose terms args r v T A C h0) (hT : 0 < T) {o : OrbDynx ℝ (V3 ℝ × V3 ℝ)}
    (ho : o.terms = terms) (hoa : o.args = args) {tb : Tableau ℝ} {β ctol H η : ℝ} {x0 : V3 ℝ × V3 ℝ} (hne : tb.rows ≠ [])
    (hR : RowsOk A β tb.rows 1) (hc : 0 ≤ ctol) (hx : Near η x0 (r 0, v 0)) (hH : 0 ≤ H) (hle : H + |β - 1| + η ≤ h0)
    {interp : ℝ → ℝ → V3 ℝ × V3 ℝ → V3 ℝ × V3 ℝ → ℝ → V3 ℝ × V3 ℝ}
    {err : ℝ → ℝ → V3 ℝ × V3 ℝ → V3 ℝ × V3 ℝ → V3 ℝ × V3 ℝ} {γ : Type} {ctrl : Controller ℝ (V3 ℝ × V3 ℝ) γ} {P : γ → Prop}
    (hv : ctrl.Valid none P) {s : Sol ℝ (V3 ℝ × V3 ℝ)}
    (hs : adaptive_steps ctol o x0 T (rkSolver tb interp err) ctrl = some (.ok s))
    (hch : s.saved.IsChain (fun p q => q.1 - p.1 ≤ H)) :
    ∃ p, to_final ctol o x0 T (rkSolver tb interp err) ctrl = some (.ok { s with saved := [p] }) ∧
      Near (C * (H + |β - 1| + η)) p.2 (r p.1, v p.1) := by
  obtain ⟨p, hp, hf⟩ := (C45_final_is_last hc hT hv).1 s hs
  exact ⟨p, hf, ((h o tb interp err β ctol η x0 _ s ho hoa hne hR hc hx).2 γ ctrl P H hv hH hle hs hch p
    (List.mem_of_getLast? hp)).2.2⟩

end

/-! ## Tsitouras' method -/

/-- The coefficients of Tsitouras' 5(4) pair (Comput. Math. Appl. 62 (2011) 770–775), the method of diffrax's `Tsit5`,
rounded to about 16 digits; written from the literature, not compared with diffrax's source. -/
noncomputable def tsit5 : Tableau ℝ where
  rows := [
    (161 / 1000, [161 / 1000]),
    (327 / 1000, [-8480655492356989 / 10 ^ 18, 335480655492357 / 10 ^ 15]),
    (9 / 10, [2897153057105493 / 10 ^ 15, -6359448489975075 / 10 ^ 15, 43622954328695815 / 10 ^ 16]),
    (9800255409045097 / 10 ^ 16, [5325864828439257 / 10 ^ 15, -11748883564062828 / 10 ^ 15, 7495539342889836 / 10 ^ 15,
      -9249506636175525 / 10 ^ 17]),
    (1, [586145544294642 / 10 ^ 14, -1292096931784711 / 10 ^ 14, 8159367898576159 / 10 ^ 15, -71584973281401 / 10 ^ 15,
      -28269050394068383 / 10 ^ 18]),
    (1, [9646076681806523 / 10 ^ 17, 1 / 100, 4798896504144996 / 10 ^ 16, 1379008574103742 / 10 ^ 15,
      -3290069515436081 / 10 ^ 15, 2324710524099774 / 10 ^ 15])]

/-- The sum of its weights is not exactly 1. -/
theorem tsit5_ok : ∃ β, RowsOk 28 β tsit5.rows 1 ∧ |β - 1| ≤ 1 / 10 ^ 15 ∧ β ≠ 1 := by
  refine ⟨99999999999999983 / 100000000000000000, ⟨?_, fun p hp => ?_, ?_⟩, ?_, by norm_num⟩
  · intro p hp
    simp only [tsit5, List.mem_cons, List.not_mem_nil, or_false] at hp
    rcases hp with rfl | rfl | rfl | rfl | rfl | rfl <;>
      (simp only [rowAbs, List.map_cons, List.map_nil, List.sum_cons, List.sum_nil]; norm_num [abs_div])
  · simp only [tsit5, List.getLast?_cons_cons, List.getLast?_singleton, Option.some.injEq] at hp
    subst hp
    norm_num
  · intro i hi
    simp only [tsit5, List.length_cons, List.length_nil] at hi
    have hi' : i = 0 ∨ i = 1 ∨ i = 2 ∨ i = 3 ∨ i = 4 ∨ i = 5 := by omega
    rcases hi' with rfl | rfl | rfl | rfl | rfl | rfl <;> simp [tsit5]
  · rw [abs_le]; norm_num

/-! ## Arbitrarily small errors; the sum of the weights -/

/-- Heun's method. -/
noncomputable def heun : Tableau ℝ where
  rows := [(1, [1]), (1, [1 / 2, 1 / 2])]

theorem heun_ok : RowsOk 1 1 heun.rows 1 where
  abs p hp := by
    simp only [heun, List.mem_cons, List.not_mem_nil, or_false] at hp
    rcases hp with rfl | rfl <;>
      (simp only [rowAbs, List.map_cons, List.map_nil, List.sum_cons, List.sum_nil]; norm_num)
  last p hp := by
    simp only [heun, List.getLast?_cons_cons, List.getLast?_singleton, Option.some.injEq] at hp
    subst hp
    norm_num
  tri i hi := by
    simp only [heun, List.length_cons, List.length_nil] at hi
    have hi' : i = 0 ∨ i = 1 := by omega
    rcases hi' with rfl | rfl <;> simp [heun]

/-- C73, limit: if the weights sum to 1 the state returned by `fixed_steps` at `T` is as close as wanted to the state
`kepler` computes, for every `dt` small enough. -/
theorem C73_limit {mu T A : ℝ} {r v : V3 ℝ} {o : OrbDynx ℝ (V3 ℝ × V3 ℝ)} (ho : o.terms = secondOrder point_mass_grav)
    (hm : o.args "mu" = some mu) (he : o.event = none) (hmu : 0 < mu) (hh : angular_momentum r v ≠ ⟨0, 0, 0⟩) (hT : 0 < T)
    (hA : 0 ≤ A) {tb : Tableau ℝ} (hne : tb.rows ≠ []) (hR : RowsOk A 1 tb.rows 1)
    (interp : ℝ → ℝ → V3 ℝ × V3 ℝ → V3 ℝ × V3 ℝ → ℝ → V3 ℝ × V3 ℝ)
    (err : ℝ → ℝ → V3 ℝ × V3 ℝ → V3 ℝ × V3 ℝ → V3 ℝ × V3 ℝ) {ε : ℝ} (hε : 0 < ε) :
    ∃ δ > 0, ∀ dt ctol : ℝ, 0 < dt → 0 ≤ ctol → dt + ctol ≤ δ → ∀ m : ℕ, T ≤ m * dt →
      ∃ s y, fixed_steps ctol o (r, v) T dt (rkSolver tb interp err) (some m) = some (.ok s) ∧
        s.saved.getLast? = some (T, y) ∧ Near ε y (exactProp r v mu T) := by
  obtain ⟨e0, C, h0, hC, hh0, hcl⟩ := C73_kepler (args := o.args) hm hmu hh hT hA
  refine ⟨min h0 (ε / (C + 1)), by positivity, fun dt ctol hdt hc hle m hmT => ?_⟩
  have hle1 : dt + ctol + |(1 : ℝ) - 1| + 0 ≤ h0 := by simpa using hle.trans (min_le_left _ _)
  have hk : ∃ k, secondOrder point_mass_grav 0 ((exactProp r v mu 0).1, (exactProp r v mu 0).2) o.args = .ok k := by
    simp only [secondOrder, C41_point_mass_is_newton 0 mu _ o.args hm]; exact ⟨_, rfl⟩
  obtain ⟨k, hk⟩ := hk
  obtain ⟨s, y, h1, h2, h3⟩ := C73_reaches hcl hT ho rfl he hk hne hR hc (near_self _) hdt hle1 hmT interp err
  rw [e0] at h1
  refine ⟨s, y, h1, h2, ?_⟩
  have hle2 : dt + ctol ≤ ε / (C + 1) := hle.trans (min_le_right _ _)
  rw [le_div_iff₀ (by positivity)] at hle2
  have hb : C * (dt + ctol + |(1 : ℝ) - 1| + 0) ≤ ε := by
    rw [sub_self, abs_zero, add_zero, add_zero]; nlinarith
  obtain ⟨a1, a2, a3, a4, a5, a6⟩ := h3
  exact ⟨a1.trans hb, a2.trans hb, a3.trans hb, a4.trans hb, a5.trans hb, a6.trans hb⟩

/-- The hypotheses can be met: a circular orbit, Heun's method. -/
example : ∃ δ > 0, ∀ dt ctol : ℝ, 0 < dt → 0 ≤ ctol → dt + ctol ≤ δ → ∀ m : ℕ, 10 ≤ m * dt →
    ∃ s y, fixed_steps ctol { terms := secondOrder point_mass_grav } ((⟨1, 0, 0⟩, ⟨0, 1, 0⟩) : V3 ℝ × V3 ℝ) 10 dt
        (rkSolver heun (fun _ _ y _ _ => y) (fun _ _ y _ => y)) (some m) = some (.ok s) ∧
      s.saved.getLast? = some (10, y) ∧ Near (1 / 1000) y (exactProp ⟨1, 0, 0⟩ ⟨0, 1, 0⟩ 1 10) :=
  C73_limit rfl (by simp [defaultArgs]) rfl one_pos (by simp [angular_momentum, V3.cross]) (by norm_num) zero_le_one
    (by simp [heun]) heun_ok _ _ (by norm_num)

/-- C73, the sum of the weights matters: without acceleration one step moves the position by `β` times `h v`, so the error
`|β - 1| |v| T` stays however short the steps are. -/
theorem C73_defect {rows : List (ℝ × List ℝ)} {A β : ℝ} (hne : rows ≠ []) (hR : RowsOk A β rows 1) (t h : ℝ) (x v : V3 ℝ) :
    let f : ℝ → V3 ℝ × V3 ℝ → V3 ℝ × V3 ℝ := fun _ y => (y.2, ⟨0, 0, 0⟩)
    rkStages f t h (x, v) rows [f t (x, v)] (x, v) (f t (x, v)) = ((x + (h * β) • v, v), (v, ⟨0, 0, 0⟩)) := by
  intro f
  have hcomb : ∀ (row : List ℝ) (n : ℕ) (x : V3 ℝ), row.length ≤ n →
      rkCombine h (x, v) row (List.replicate n (v, ⟨0, 0, 0⟩)) = (x + (h * row.sum) • v, v) := by
    intro row
    induction row with
    | nil =>
      intro n x _
      show (x, v) = _
      refine Prod.ext (V3.ext ?_ ?_ ?_) rfl <;> simp
    | cons a row ih =>
      intro n x hn
      cases n with
      | zero => simp at hn
      | succ n =>
        have := ih n (x + (h * a) • v) (by simpa using hn)
        have e : ((x, v) : V3 ℝ × V3 ℝ) + (h * a) • (v, (⟨0, 0, 0⟩ : V3 ℝ)) = (x + (h * a) • v, v) := by
          refine Prod.ext rfl (V3.ext ?_ ?_ ?_) <;> simp
        rw [List.replicate_succ]
        show rkCombine h ((x, v) + (h * a) • (v, (⟨0, 0, 0⟩ : V3 ℝ))) row _ = _
        rw [e, this]
        refine Prod.ext (V3.ext ?_ ?_ ?_) rfl <;> simp <;> ring
  have key : ∀ (rows : List (ℝ × List ℝ)) (n : ℕ) (yl kl : V3 ℝ × V3 ℝ), rows ≠ [] → RowsOk A β rows (n + 1) →
      rkStages f t h (x, v) rows (List.replicate (n + 1) (v, ⟨0, 0, 0⟩)) yl kl
        = ((x + (h * β) • v, v), (v, ⟨0, 0, 0⟩)) := by
    intro rows
    induction rows with
    | nil => intro n yl kl h; exact absurd rfl h
    | cons p rest ih =>
      intro n yl kl _ hR
      have hp : p.2.length ≤ n + 1 := by have := hR.tri 0 (by simp); exact this
      simp only [rkStages]
      rw [hcomb p.2 (n + 1) x hp]
      cases hrest : rest with
      | nil =>
        have := hR.last p (by simp [hrest])
        simp only [rkStages, f, this]
      | cons q rest' =>
        rw [← hrest]
        have := ih (n + 1) (x + (h * p.2.sum) • v, v) (f (t + p.1 * h) (x + (h * p.2.sum) • v, v)) (by simp [hrest]) hR.tail
        rw [← this]
        congr 1
        rw [List.replicate_succ' (n := n + 1)]
  exact key rows 0 _ _ hne hR

end Adx
