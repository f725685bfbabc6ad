import Verif.Props.C10
import Verif.Props.C13

/-! # C14, C15, C16: what the three solvers guarantee about the value they return

`elpsRun`, `hypbRun`, `uniRun` are the final loop carries `(iterations, value, previous value)`. -/

namespace Adx
open V3 Filter Topology

/-- C14: if `solve_kepler_elps` stops before its iteration limit, the residual of the returned value is at
most `e tol²/2`, and its distance to the exact eccentric anomaly at most `e tol² / (2(1-e))`. -/
theorem C14_elps_accuracy {M e tol : ℝ} (h0 : 0 ≤ e) (h1 : e < 1) (htol : 0 < tol) {max_iter k : ℕ}
    {E Ep : ℝ} (hrun : elpsRun M e tol max_iter = some (k, E, Ep)) (hk : k < max_iter) :
    solve_kepler_elps M e tol max_iter = some E ∧
    |kepler_equ_elps E e M| ≤ e * tol ^ 2 / 2 ∧
    ∀ Es, kepler_equ_elps Es e M = 0 → |E - Es| ≤ e * tol ^ 2 / (2 * (1 - e)) := by
  obtain ⟨k', -, hr, hs, -, hstop⟩ := C13_elps M e tol max_iter
  rw [hr] at hrun
  simp only [Option.some.injEq, Prod.mk.injEq] at hrun
  obtain ⟨rfl, rfl, rfl⟩ := hrun
  have hst := hstop hk
  simp only [lt_real, abs_real, decide_eq_false_iff_not, not_lt] at hst
  rcases k' with _ | k
  · exfalso
    simp only [prevOf, Function.iterate_zero, id_eq, Nat.cast_ofNat] at hst
    rw [show elpsStart M e - (elpsStart M e + 2 * tol) = -(2 * tol) by ring, abs_neg,
      abs_of_pos (by linarith)] at hst
    linarith
  refine ⟨hs, ?_⟩
  simp only [prevOf, Function.iterate_succ_apply'] at hst ⊢
  set x := (newtonElps M e)^[k] (elpsStart M e) with hx
  have hd : 0 < dE x e := by linarith [dE_ge h0 x]
  set s := newtonElps M e x - x with hsdef
  have hs' : s * dE x e = -kepler_equ_elps x e M := by
    rw [hsdef, newtonElps]; field_simp; ring
  have hres : |kepler_equ_elps (newtonElps M e x) e M| ≤ e * tol ^ 2 / 2 := by
    have hT := sin_taylor x s
    have hxs : x + s = newtonElps M e x := by rw [hsdef]; ring
    rw [hxs] at hT
    have heq : kepler_equ_elps (newtonElps M e x) e M
        = -e * (Real.sin (newtonElps M e x) - Real.sin x - s * Real.cos x) := by
      rw [dE_eq, kep_elps_eq] at hs'
      rw [kep_elps_eq]
      linear_combination hs' - hxs
    have hsq : s ^ 2 ≤ tol ^ 2 := by
      rw [← sq_abs s]
      exact pow_le_pow_left₀ (abs_nonneg _) hst 2
    rw [heq, abs_mul, abs_neg, abs_of_nonneg h0]
    have := mul_le_mul_of_nonneg_left hT h0
    nlinarith
  refine ⟨hres, fun Es hEs => ?_⟩
  have := abs_sub_le_of_slope (by linarith : 0 < 1 - e) (fun E => hasDerivAt_elps E e M) (dE_ge h0)
    (newtonElps M e x) Es
  rw [hEs, sub_zero] at this
  refine this.trans ?_
  rw [div_le_div_iff₀ (by linarith) (by linarith)]
  nlinarith

/-- C15: if `solve_kepler_hypb` stops before its iteration limit the residual is at most `tol` and the error
at most `tol/(e-1)`. -/
theorem C15_hypb_accuracy {N e tol : ℝ} (h1 : 1 < e) {max_iter k : ℕ}
    {H Hp : ℝ} (hrun : hypbRun N e tol max_iter = some (k, H, Hp)) (hk : k < max_iter) :
    solve_kepler_hypb N e tol max_iter = some H ∧
    |kepler_equ_hypb H e N| ≤ tol ∧
    ∀ Hs, kepler_equ_hypb Hs e N = 0 → |H - Hs| ≤ tol / (e - 1) := by
  obtain ⟨k', -, hr, hs, -, hstop⟩ := C13_hypb N e tol max_iter
  rw [hr] at hrun
  simp only [Option.some.injEq, Prod.mk.injEq] at hrun
  obtain ⟨rfl, rfl, rfl⟩ := hrun
  have hst := hstop hk
  simp only [lt_real, abs_real, decide_eq_false_iff_not, not_lt] at hst
  refine ⟨hs, hst, fun Hs hHs => ?_⟩
  have := abs_sub_le_of_slope (by linarith : 0 < e - 1) (fun H => hasDerivAt_hypb H e N)
    (dH_ge (by linarith)) ((newtonHypb N e)^[k'] (hypbStart N e)) Hs
  rw [hHs, sub_zero] at this
  exact this.trans (div_le_div_of_nonneg_right hst (by linarith))

/-- A loop with a residual test whose iterates converge meets the test for every large enough limit. -/
theorem eventually_meets {f : ℝ → ℝ} (hf : Continuous f) {x : ℕ → ℝ} {xs : ℝ} (hxs : f xs = 0)
    (hx : Tendsto x atTop (𝓝 xs)) {tol : ℝ} (htol : 0 < tol) : ∃ n, |f (x n)| ≤ tol := by
  have h := (hf.tendsto xs).comp hx
  rw [hxs] at h
  obtain ⟨n, hn⟩ := (h.abs.eventually_lt_const (by simpa using htol)).exists
  exact ⟨n, hn.le⟩

/-- C15: for every mean anomaly, eccentricity above one and tolerance there is an iteration limit from which
on `solve_kepler_hypb` meets the tolerance. -/
theorem C15_hypb_converges {e tol : ℝ} (h1 : 1 < e) (htol : 0 < tol) (N : ℝ) :
    ∃ n0, ∀ max_iter ≥ n0, ∃ H, solve_kepler_hypb N e tol max_iter = some H ∧
      |kepler_equ_hypb H e N| ≤ tol ∧
      ∀ Hs, kepler_equ_hypb Hs e N = 0 → |H - Hs| ≤ tol / (e - 1) := by
  obtain ⟨xs, hxs, -⟩ := C11_existsUnique h1 N
  have hpos : ∀ x, 0 < dH x e := fun x => by linarith [dH_ge (by linarith : 0 ≤ e) x]
  have hcont : Continuous fun x : ℝ => dH x e := by
    simp only [dH_eq]; exact (Real.continuous_cosh.const_mul e).sub continuous_const
  have hconv := newton_tendsto (f := fun H => kepler_equ_hypb H e N) (f' := fun H => dH H e) (c := 0)
    (fun H => hasDerivAt_hypb H e N) hpos hcont
    (fun x hx y hy hxy => by
      simp only [dH_eq, Set.mem_Iic] at *
      have : Real.cosh y ≤ Real.cosh x := by
        rw [Real.cosh_le_cosh, abs_of_nonpos hx, abs_of_nonpos hy]; linarith
      nlinarith)
    (fun x hx y hy hxy => by
      simp only [dH_eq, Set.mem_Ici] at *
      have : Real.cosh x ≤ Real.cosh y := by
        rw [Real.cosh_le_cosh, abs_of_nonneg hx, abs_of_nonneg hy]; linarith
      nlinarith) hxs (hypbStart N e)
  obtain ⟨n0, hn0⟩ := eventually_meets
    (continuous_iff_continuousAt.2 fun H => (hasDerivAt_hypb H e N).continuousAt) hxs hconv htol
  refine ⟨n0, fun max_iter hmax => ?_⟩
  obtain ⟨k, hk, -, hs, hbefore, hstop⟩ := C13_hypb N e tol max_iter
  have hres : |kepler_equ_hypb ((newtonHypb N e)^[k] (hypbStart N e)) e N| ≤ tol := by
    rcases hk.lt_or_eq with h | rfl
    · simpa using hstop h
    · rcases hmax.lt_or_eq with h | rfl
      · have := hbefore n0 h
        simp only [lt_real, abs_real, decide_eq_true_eq] at this
        exact absurd hn0 (not_le.2 this)
      · exact hn0
  refine ⟨_, hs, hres, fun Hs hHs => ?_⟩
  have := abs_sub_le_of_slope (by linarith : 0 < e - 1) (fun H => hasDerivAt_hypb H e N)
    (dH_ge (by linarith)) ((newtonHypb N e)^[k] (hypbStart N e)) Hs
  rw [hHs, sub_zero] at this
  exact this.trans (div_le_div_of_nonneg_right hres (by linarith))

/-- C16: if `solve_kepler_uni` stops before its iteration limit the residual is at most `tol`, and the error
at most `tol` over the lower bound of the radius. -/
theorem C16_uni_accuracy {r v : V3 ℝ} {mu t tol : ℝ} (hmu : 0 < mu)
    (hh : angular_momentum r v ≠ ⟨0, 0, 0⟩) {max_iter k : ℕ} {χ χp : ℝ}
    (hrun : uniRun t (1 / semimajor_axis (V3.norm r) (V3.norm v) mu) (V3.norm r) (sigma_fn r v mu) mu tol
      max_iter = some (k, χ, χp)) (hk : k < max_iter) :
    let α := 1 / semimajor_axis (V3.norm r) (V3.norm v) mu
    solve_kepler_uni t α (V3.norm r) (sigma_fn r v mu) mu tol max_iter = some χ ∧
    |kepler_equ_uni χ α (V3.norm r) (sigma_fn r v mu) t mu| ≤ tol ∧
    ∀ χs, kepler_equ_uni χs α (V3.norm r) (sigma_fn r v mu) t mu = 0 →
      |χ - χs| ≤ tol / min 1 (semiparameter (V3.norm (angular_momentum r v)) mu / (2 + |α|)) := by
  intro α
  obtain ⟨k', -, hr, hs, -, hstop⟩ := C13_uni t α (V3.norm r) (sigma_fn r v mu) mu tol max_iter
  rw [hr] at hrun
  simp only [Option.some.injEq, Prod.mk.injEq] at hrun
  obtain ⟨rfl, rfl, rfl⟩ := hrun
  have hst := hstop hk
  simp only [lt_real, abs_real, decide_eq_false_iff_not, not_lt] at hst
  refine ⟨hs, hst, fun χs hχs => ?_⟩
  have hpos : 0 < min 1 (semiparameter (V3.norm (angular_momentum r v)) mu / (2 + |α|)) := by
    have : 0 < semiparameter (V3.norm (angular_momentum r v)) mu :=
      div_pos (pow_pos ((norm_pos _).2 hh) 2) hmu
    positivity
  have := abs_sub_le_of_slope hpos
    (fun χ => hasDerivAt_uni χ α (V3.norm r) (sigma_fn r v mu) t mu) (C12_radius_bound hmu hh)
    ((newtonUni t α (V3.norm r) (sigma_fn r v mu) mu)^[k'] (uniStart t α mu)) χs
  rw [hχs, sub_zero] at this
  exact this.trans (div_le_div_of_nonneg_right hst hpos.le)

/-- C16: for parabolic and hyperbolic states there is, for every time and tolerance, an iteration limit from
which on `solve_kepler_uni` meets the tolerance. -/
theorem C16_uni_converges {r v : V3 ℝ} {mu t tol : ℝ} (hmu : 0 < mu)
    (hh : angular_momentum r v ≠ ⟨0, 0, 0⟩) (htol : 0 < tol)
    (hα : 1 / semimajor_axis (V3.norm r) (V3.norm v) mu ≤ 0) :
    let α := 1 / semimajor_axis (V3.norm r) (V3.norm v) mu
    ∃ n0, ∀ max_iter ≥ n0, ∃ χ, solve_kepler_uni t α (V3.norm r) (sigma_fn r v mu) mu tol max_iter = some χ ∧
      |kepler_equ_uni χ α (V3.norm r) (sigma_fn r v mu) t mu| ≤ tol := by
  intro α
  obtain ⟨xs, hxs, -⟩ := C12_existsUnique hmu hh t
  obtain ⟨h0, hp⟩ := state_invariant_pos hmu hh
  rw [← inv_semimajor_axis] at hp
  have hαle : α ≤ 0 := hα
  set r0 := V3.norm r
  set σ0 := sigma_fn r v mu
  have hpos : ∀ χ, 0 < radU α r0 σ0 χ := radU_pos h0 hp
  -- the radius has its minimum where its derivative vanishes
  have hsig : ∀ x, (1 : ℝ) ≤ 1 - α * radU α r0 σ0 x := fun x => by
    have := mul_nonpos_of_nonpos_of_nonneg hαle (hpos x).le
    linarith
  obtain ⟨c, hc, -⟩ := existsUnique_root one_pos (hasDerivAt_sigU α r0 σ0) hsig 0
  have hsm := strictMono_of_slope one_pos (hasDerivAt_sigU α r0 σ0) hsig
  have hcr := continuous_radU α r0 σ0
  have hmono : MonotoneOn (radU α r0 σ0) (Set.Ici c) := by
    refine monotoneOn_of_deriv_nonneg (convex_Ici c) hcr.continuousOn
      (fun u _ => (hasDerivAt_radU α r0 σ0 u).differentiableAt.differentiableWithinAt) ?_
    intro u hu
    rw [interior_Ici] at hu
    rw [(hasDerivAt_radU α r0 σ0 u).deriv, ← hc]
    exact (hsm hu).le
  have hanti : AntitoneOn (radU α r0 σ0) (Set.Iic c) := by
    refine antitoneOn_of_deriv_nonpos (convex_Iic c) hcr.continuousOn
      (fun u _ => (hasDerivAt_radU α r0 σ0 u).differentiableAt.differentiableWithinAt) ?_
    intro u hu
    rw [interior_Iic] at hu
    rw [(hasDerivAt_radU α r0 σ0 u).deriv, ← hc]
    exact (hsm hu).le
  have hd : ∀ χ, HasDerivAt (fun χ => kepler_equ_uni χ α r0 σ0 t mu) (radU α r0 σ0 χ) χ := fun χ => by
    have := hasDerivAt_uni χ α r0 σ0 t mu
    rwa [dchi_eq] at this
  have hconv := newton_tendsto hd hpos hcr hanti hmono hxs (uniStart t α mu)
  have hN : newton (fun χ => kepler_equ_uni χ α r0 σ0 t mu) (radU α r0 σ0) = newtonUni t α r0 σ0 mu := by
    funext χ; simp only [newton, newtonUni, dchi_eq]
  rw [hN] at hconv
  obtain ⟨n0, hn0⟩ := eventually_meets
    (continuous_iff_continuousAt.2 fun χ => (hd χ).continuousAt) hxs hconv htol
  refine ⟨n0, fun max_iter hmax => ?_⟩
  obtain ⟨k, hk, -, hs, hbefore, hstop⟩ := C13_uni t α r0 σ0 mu tol max_iter
  refine ⟨_, hs, ?_⟩
  rcases hk.lt_or_eq with h | rfl
  · simpa using hstop h
  · rcases hmax.lt_or_eq with h | rfl
    · have := hbefore n0 h
      simp only [lt_real, abs_real, decide_eq_true_eq] at this
      exact absurd hn0 (not_le.2 this)
    · exact hn0

/-- Hypotheses of C14 met: `e = 1/2`, `M = π`, one Newton step. -/
example : elpsRun Real.pi (1 / 2) 1 20 = some (1, Real.pi, Real.pi) := by
  have h0 : elpsStart Real.pi (1 / 2 : ℝ) = Real.pi := by simp [elpsStart]
  unfold elpsRun
  simp only [h0]
  have hb : ∀ n x, elpsBody Real.pi (1 / 2 : ℝ) (n, Real.pi, x) = (n + 1, Real.pi, Real.pi) := by
    intro n x; simp [elpsBody]
  rw [whileLoop_of_iterate _ _ 1]
  · simp only [Function.iterate_one, hb]
  · intro j hj
    obtain rfl : j = 0 := by omega
    simp [elpsCond]
  · simp only [Function.iterate_one, hb]; simp [elpsCond]

/-- Hypotheses of C15/C16 met by nontrivial runs: for a large enough limit the loop stops before it. -/
example : ∃ max_iter k H Hp, hypbRun 3 2 (1 / 1000 : ℝ) max_iter = some (k, H, Hp) ∧ k < max_iter := by
  obtain ⟨n0, hn0⟩ := C15_hypb_converges (e := 2) (tol := 1 / 1000) (by norm_num) (by norm_num) 3
  obtain ⟨k, hk, hr, hs, -, -⟩ := C13_hypb 3 2 (1 / 1000 : ℝ) n0
  obtain ⟨H, hH, hres, -⟩ := hn0 n0 le_rfl
  obtain ⟨k', hk', hr', hs', hb', -⟩ := C13_hypb 3 2 (1 / 1000 : ℝ) (n0 + 1)
  refine ⟨n0 + 1, k', _, _, hr', ?_⟩
  by_contra h
  have := hb' k (by omega)
  rw [hs] at hH
  simp only [Option.some.injEq] at hH
  rw [hH] at this
  simp only [lt_real, abs_real, decide_eq_true_eq] at this
  exact absurd hres (not_le.2 this)

end Adx
