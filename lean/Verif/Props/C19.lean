import Verif.Lemmas.Flow
import Verif.Props.C17
import Verif.Props.C26

/-! # C19, C20, C22, C25: what `kepler` guarantees even when its root search has not converged -/

namespace Adx
open V3

theorem alphaOf_cast (r v : V3 ℝ) (mu : ℝ) :
    ((1 : ℕ) : ℝ) / semimajor_axis (V3.norm r) (V3.norm v) mu = alphaOf r v mu := by
  simp [alphaOf]

/-- Row `i` of the result is the Lagrange step with the value the root search returned. -/
theorem kepler_row {ts : List ℝ} {r v : V3 ℝ} {mu : ℝ} {rs vs : List (V3 ℝ)}
    (h : kepler ts r v mu = some (rs, vs)) {i : ℕ} {r' v' : V3 ℝ} (hr : rs[i]? = some r')
    (hv : vs[i]? = some v') :
    ∃ t χ, ts[i]? = some t ∧
      solve_kepler_uni t (alphaOf r v mu) (V3.norm r) (sigma_fn r v mu) mu = some χ ∧
      stepOf r v mu χ = (r', v') := by
  rw [kepler_eq_map] at h
  obtain ⟨rfl, rfl⟩ := Prod.mk.inj (Option.some.inj h)
  rw [List.getElem?_map] at hr hv
  rcases ht : ts[i]? with _ | t
  · rw [ht] at hr; cases hr
  · rw [ht] at hr hv
    simp only [Option.map_some, Option.some.injEq] at hr hv
    refine ⟨t, _, rfl, solve_eq_chiOf _ _ _ _ _, ?_⟩
    rw [← hr, ← hv]
    simp only [keplerRow, item_real, alphaOf_cast]

/-- C19: whatever `chi` the root search ended with, each returned state whose position is not the centre has
the angular momentum, semimajor axis and eccentricity vector of the initial state. -/
theorem C19_stays_on_orbit {ts : List ℝ} {r v : V3 ℝ} {mu : ℝ} (hr0 : r ≠ ⟨0, 0, 0⟩) (hmu : 0 < mu)
    {rs vs : List (V3 ℝ)} (h : kepler ts r v mu = some (rs, vs)) {i : ℕ} {r' v' : V3 ℝ}
    (hr : rs[i]? = some r') (hv : vs[i]? = some v') (hne : r' ≠ ⟨0, 0, 0⟩) :
    angular_momentum r' v' = angular_momentum r v ∧
    semimajor_axis (V3.norm r') (V3.norm v') mu = semimajor_axis (V3.norm r) (V3.norm v) mu ∧
    eccentricity_vector r' v' mu = eccentricity_vector r v mu := by
  obtain ⟨t, χ, -, -, hstep⟩ := kepler_row h hr hv
  have hrad : radOf r v mu χ ≠ 0 := by
    rw [← step_norm hr0 hmu, hstep]; exact ((norm_pos r').2 hne).ne'
  have h1 := step_h hr0 hmu hrad
  have h2 := step_invA hr0 hmu hrad
  have h3 := step_ecc hr0 hmu hrad
  rw [hstep] at h1 h2 h3
  refine ⟨h1, ?_, h3⟩
  rw [← inv_semimajor_axis, ← inv_semimajor_axis] at h2
  simpa using h2

/-- C19: for a state with nonzero angular momentum the returned positions are never the centre. -/
theorem C19_never_collides {ts : List ℝ} {r v : V3 ℝ} {mu : ℝ} (hmu : 0 < mu)
    (hh : angular_momentum r v ≠ ⟨0, 0, 0⟩) {rs vs : List (V3 ℝ)} (h : kepler ts r v mu = some (rs, vs))
    {r' : V3 ℝ} (hr : r' ∈ rs) : r' ≠ ⟨0, 0, 0⟩ := by
  obtain ⟨i, hi⟩ := List.mem_iff_getElem?.1 hr
  have hlen : i < vs.length := by
    have h' := h
    rw [kepler_eq_map] at h'
    obtain ⟨rfl, rfl⟩ := Prod.mk.inj (Option.some.inj h')
    obtain ⟨h1, -⟩ := List.getElem?_eq_some_iff.1 hi
    simpa using h1
  obtain ⟨t, χ, -, -, hstep⟩ := kepler_row h hi (List.getElem?_eq_getElem hlen)
  obtain ⟨h0, -⟩ := state_invariant_pos hmu hh
  rw [← norm_pos, show r' = (stepOf r v mu χ).1 by rw [hstep], step_norm ((norm_pos r).1 h0) hmu]
  exact radOf_pos hmu hh

/-- C20: the four Lagrange coefficients, for a state with nonzero angular momentum and every `chi`: the map
has determinant one and the new position has the norm `equ_of_orb_uvi`. -/
theorem C20_lagrange {r v : V3 ℝ} {mu : ℝ} (hmu : 0 < mu) (hh : angular_momentum r v ≠ ⟨0, 0, 0⟩) (χ : ℝ) :
    let α := 1 / semimajor_axis (V3.norm r) (V3.norm v) mu
    let r0 := V3.norm r
    let σ0 := sigma_fn r v mu
    let R := equ_of_orb_uvi (ufunc0 χ α) (ufunc1 χ α) (ufunc2 χ α) r0 σ0
    let F := lagrange_F (ufunc2 χ α) r0
    let G := lagrange_G (ufunc1 χ α) (ufunc2 χ α) σ0 r0 mu
    let Ft := lagrange_Ft (ufunc1 χ α) R r0 mu
    let Gt := lagrange_Gt (ufunc2 χ α) R
    F * Gt - Ft * G = 1 ∧ V3.norm (F • r + G • v) = R ∧ 0 < R := by
  intro α r0 σ0 R F G Ft Gt
  obtain ⟨h0, -⟩ := state_invariant_pos hmu hh
  have hr : r ≠ ⟨0, 0, 0⟩ := (norm_pos r).1 h0
  have hR : R = radOf r v mu χ := dchi_eq χ α r0 σ0
  have hpos : 0 < radOf r v mu χ := radOf_pos hmu hh
  have e := keplerStep_eq χ α r0 σ0 mu r v
  have hw := lagrange_wronskian (α := α) (σ0 := σ0) (χ := χ) h0.ne' hpos.ne' hmu
  refine ⟨?_, ?_, by rw [hR]; exact hpos⟩
  · rw [← hw]
    simp only [F, G, Ft, Gt, R, lagrange_F, lagrange_G, lagrange_Ft, lagrange_Gt, equ_of_orb_uvi, C07_ufunc0,
      C07_ufunc1, C07_ufunc2, sqrt_real, Nat.cast_one, cF, cG, cFt, cGt, radU, r0]
  · rw [hR, ← step_norm hr hmu]
    rfl

/-- C22: propagating by zero time is the identity, and no Newton step is taken. -/
theorem C22_zero_time {r v : V3 ℝ} {mu : ℝ} (hr : r ≠ ⟨0, 0, 0⟩) :
    kepler [0] r v mu = some ([r], [v]) ∧
    ∀ tol, 0 ≤ tol → ∀ max_iter, ∃ c : Carry ℝ,
      uniRun 0 (alphaOf r v mu) (V3.norm r) (sigma_fn r v mu) mu tol max_iter = some c ∧ c.1 = 0 ∧ c.2.1 = 0 := by
  have hrun : ∀ tol, 0 ≤ tol → ∀ max_iter, ∃ c : Carry ℝ,
      uniRun 0 (alphaOf r v mu) (V3.norm r) (sigma_fn r v mu) mu tol max_iter = some c ∧ c.1 = 0 ∧
        c.2.1 = 0 := by
    intro tol htol n
    have hst : uniStart 0 (alphaOf r v mu) mu = 0 := by simp [uniStart]
    refine ⟨uniInit 0 (alphaOf r v mu) mu tol, ?_, rfl, hst⟩
    unfold uniRun
    rw [whileLoop, if_neg]
    obtain ⟨-, h1, h2, h3, -⟩ := C08_at_zero (alphaOf r v mu)
    simp [uniCond, uniInit, hst, kepler_equ_uni, h1, h2, h3, htol.not_gt]
  refine ⟨?_, hrun⟩
  have hn : V3.norm r ≠ 0 := ((norm_pos r).2 hr).ne'
  obtain ⟨c, h1, -, h3⟩ := hrun defaultTol (by simp [defaultTol]) 50
  have hχ : chiOf 0 (alphaOf r v mu) (V3.norm r) (sigma_fn r v mu) mu = 0 := by
    simp only [chiOf, solve_kepler_uni, h1, Option.map_some, Option.getD_some, h3]
  have hrow : keplerRow r v mu 0 = (r, v) := by
    simp only [keplerRow, item_real, alphaOf_cast, hχ, keplerStep_eq]
    simp only [cF, cG, cFt, cGt, Spec.U_zero_left]
    simp only [OfNat.ofNat_ne_zero, if_false, one_ne_zero, mul_zero, add_zero, zero_div, sub_zero]
    refine Prod.ext ?_ ?_ <;> ext <;> simp
  rw [kepler_eq_map]
  simp [hrow]

/-- C25: time reversal. Running backwards from the reversed velocity gives the same positions and the
reversed velocities, row by row, converged or not. -/
theorem C25_time_reversal (ts : List ℝ) (r v : V3 ℝ) (mu : ℝ) :
    kepler (ts.map fun t => -t) r (-v) mu
      = (kepler ts r v mu).map fun p => (p.1, p.2.map fun w => -w) := by
  have hnv : V3.norm (-v) = V3.norm v := by
    simp only [V3.norm, sqrt_real]; congr 1; simp only [dot, neg_x, neg_y, neg_z]; ring
  have hα : alphaOf r (-v) mu = alphaOf r v mu := by simp only [alphaOf, hnv]
  have hσ : sigma_fn r (-v) mu = -sigma_fn r v mu := by
    simp only [sigma_fn, dot, neg_x, neg_y, neg_z]; ring
  have hrow : ∀ t, keplerRow r (-v) mu (-t) = ((keplerRow r v mu t).1, -(keplerRow r v mu t).2) := by
    intro t
    simp only [keplerRow, item_real, alphaOf_cast, hα, hσ]
    have hχ : chiOf (-t) (alphaOf r v mu) (V3.norm r) (-sigma_fn r v mu) mu
        = -chiOf t (alphaOf r v mu) (V3.norm r) (sigma_fn r v mu) mu := by
      have h1 := solve_eq_chiOf t (alphaOf r v mu) (V3.norm r) (sigma_fn r v mu) mu
      have h2 := solve_eq_chiOf (-t) (alphaOf r v mu) (V3.norm r) (-sigma_fn r v mu) mu
      have h3 := C17_uni_reversal t (alphaOf r v mu) (V3.norm r) (sigma_fn r v mu) mu defaultTol 50
      rw [h1] at h3
      have h4 := h2.symm.trans h3
      simpa using h4
    rw [hχ]
    set χ := chiOf t (alphaOf r v mu) (V3.norm r) (sigma_fn r v mu) mu
    set α := alphaOf r v mu
    have hrad : radU α (V3.norm r) (-sigma_fn r v mu) (-χ) = radU α (V3.norm r) (sigma_fn r v mu) χ := by
      simp only [radU, Spec.U_neg_left]; ring
    simp only [keplerStep_eq, cF, cG, cFt, cGt, hrad, Spec.U_neg_left]
    refine Prod.ext ?_ ?_ <;> ext <;>
      simp only [add_x, add_y, add_z, smul_x, smul_y, smul_z, neg_x, neg_y, neg_z] <;> ring
  rw [kepler_eq_map, kepler_eq_map]
  simp only [List.map_map, Option.map_some, Function.comp_def, hrow]

/-- A state meeting the hypotheses: position on the x axis, moving diagonally. -/
example : (⟨1, 0, 0⟩ : V3 ℝ) ≠ ⟨0, 0, 0⟩ ∧ angular_momentum (⟨1, 0, 0⟩ : V3 ℝ) ⟨1, 1, 0⟩ ≠ ⟨0, 0, 0⟩ := by
  simp [angular_momentum, cross]

end Adx
