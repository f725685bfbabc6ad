import Verif.Lemmas.RungeKutta
import Verif.Props.C45
import Verif.Spec.Calculus
import Verif.Spec.Near
import Mathlib.Analysis.Calculus.ContDiff.Basic
import Mathlib.Analysis.Calculus.ContDiff.RCLike
import Mathlib.Analysis.Calculus.Deriv.Prod
import Mathlib.Topology.MetricSpace.Thickening
import Mathlib.Topology.MetricSpace.ProperSpace

/-! # Lemmas for C73: tubes around trajectories, convergence of the Runge–Kutta propagation -/

namespace Adx
open Spec


/-! ## A tube -/

theorem exists_tube {E : Type} [NormedAddCommGroup E] [NormedSpace ℝ E] [ProperSpace E] {F : E → E} {X : ℝ → E}
    {U : Set E} {T : ℝ} (hU : IsOpen U) (hF : ContDiffOn ℝ 1 F U)
    (hX : ∀ u ∈ Set.Icc 0 T, HasDerivWithinAt X (F (X u)) (Set.Icc 0 T) u) (hin : ∀ u ∈ Set.Icc 0 T, X u ∈ U) :
    ∃ L M ρ, 0 ≤ L ∧ 0 ≤ M ∧ 0 < ρ ∧ Tube F X T L M ρ := by
  have hXc : ContinuousOn X (Set.Icc 0 T) := fun u hu => (hX u hu).continuousWithinAt
  have hK : IsCompact (X '' Set.Icc 0 T) := isCompact_Icc.image_of_continuousOn hXc
  have hKU : X '' Set.Icc 0 T ⊆ U := by rintro _ ⟨u, hu, rfl⟩; exact hin u hu
  obtain ⟨δ, hδ, hsub⟩ := hK.exists_cthickening_subset_open hU hKU
  have hC : IsCompact (Metric.cthickening δ (X '' Set.Icc 0 T)) := hK.cthickening
  have hFc : ContinuousOn F (Metric.cthickening δ (X '' Set.Icc 0 T)) := hF.continuousOn.mono hsub
  have hdc : ContinuousOn (fderiv ℝ F) (Metric.cthickening δ (X '' Set.Icc 0 T)) :=
    (hF.continuousOn_fderiv_of_isOpen hU le_rfl).mono hsub
  obtain ⟨M, hM⟩ := hC.exists_bound_of_continuousOn hFc
  obtain ⟨L, hL⟩ := hC.exists_bound_of_continuousOn hdc
  have hball : ∀ u ∈ Set.Icc 0 T, ∀ z, ‖z - X u‖ ≤ 2 * (δ / 2) → z ∈ Metric.cthickening δ (X '' Set.Icc 0 T) := by
    intro u hu z hz
    refine Metric.mem_cthickening_of_dist_le z (X u) δ _ (Set.mem_image_of_mem X hu) ?_
    rw [dist_eq_norm]; linarith
  refine ⟨max L 0, max M 0, δ / 2, le_max_right _ _, le_max_right _ _, by linarith, hX, ?_, ?_⟩
  · intro u hu z hz
    exact (hM z (hball u hu z hz)).trans (le_max_left _ _)
  · intro u hu z w hz hw
    refine Convex.norm_image_sub_le_of_norm_fderiv_le (𝕜 := ℝ) (s := Metric.closedBall (X u) (2 * (δ / 2))) (fun x hx => ?_)
      (fun x hx => ?_) (convex_closedBall _ _) ?_ ?_
    · have hx' : ‖x - X u‖ ≤ 2 * (δ / 2) := by rw [← dist_eq_norm]; exact hx
      exact ((hF.differentiableOn one_ne_zero).differentiableAt
        (hU.mem_nhds (hsub (hball u hu x hx'))))
    · have hx' : ‖x - X u‖ ≤ 2 * (δ / 2) := by rw [← dist_eq_norm]; exact hx
      exact (hL x (hball u hu x hx')).trans (le_max_left _ _)
    · rw [Metric.mem_closedBall, dist_eq_norm]; exact hw
    · rw [Metric.mem_closedBall, dist_eq_norm]; exact hz

/-! ## Coordinates -/

/-- Coordinates of a vector. -/
def toP (a : V3 ℝ) : ℝ × ℝ × ℝ := (a.x, a.y, a.z)

/-- The vector with these coordinates. -/
def ofP (p : ℝ × ℝ × ℝ) : V3 ℝ := ⟨p.1, p.2.1, p.2.2⟩

/-- Coordinates of a state. -/
def toE (y : V3 ℝ × V3 ℝ) : (ℝ × ℝ × ℝ) × (ℝ × ℝ × ℝ) := (toP y.1, toP y.2)

@[simp] theorem ofP_toP (a : V3 ℝ) : ofP (toP a) = a := rfl

theorem hasDerivAt_toP {f : ℝ → V3 ℝ} {f' : V3 ℝ} {s : ℝ} (h : HasDerivV f f' s) :
    HasDerivAt (fun t => toP (f t)) (toP f') s := h.x.prodMk (h.y.prodMk h.z)

/-- An acceleration as a field on the states in coordinates. -/
def fieldE (a : V3 ℝ → V3 ℝ) (e : (ℝ × ℝ × ℝ) × (ℝ × ℝ × ℝ)) : (ℝ × ℝ × ℝ) × (ℝ × ℝ × ℝ) := (e.2, toP (a (ofP e.1)))

theorem near_of_norm {δ : ℝ} {p q : V3 ℝ × V3 ℝ} (h : ‖toE p - toE q‖ ≤ δ) : Near δ p q := by
  simp only [toE, toP, Prod.mk_sub_mk, Prod.norm_mk, Real.norm_eq_abs, max_le_iff] at h
  exact ⟨h.1.1, h.1.2.1, h.1.2.2, h.2.1, h.2.2.1, h.2.2.2⟩

theorem near_nonneg {δ : ℝ} {p q : V3 ℝ × V3 ℝ} (h : Near δ p q) : 0 ≤ δ := (abs_nonneg _).trans h.1

theorem near_self (p : V3 ℝ × V3 ℝ) : Near 0 p p := by simp [Near]

theorem norm_of_near {δ : ℝ} {p q : V3 ℝ × V3 ℝ} (h : Near δ p q) : ‖toE p - toE q‖ ≤ δ := by
  simp only [toE, toP, Prod.mk_sub_mk, Prod.norm_mk, Real.norm_eq_abs, max_le_iff]
  exact ⟨⟨h.1, h.2.1, h.2.2.1⟩, h.2.2.2.1, h.2.2.2.2.1, h.2.2.2.2.2⟩

/-! ## Convergence -/

section
variable {a : V3 ℝ → V3 ℝ} {Ω : Set (ℝ × ℝ × ℝ)} {r v : ℝ → V3 ℝ} {T : ℝ}

theorem converge (hΩ : IsOpen Ω) (ha : ContDiffOn ℝ 1 (fun p => toP (a (ofP p))) Ω) (hT : 0 < T)
    (hin : ∀ s ∈ Set.Icc 0 T, toP (r s) ∈ Ω) (hr : ∀ s ∈ Set.Icc 0 T, HasDerivV r (v s) s)
    (hv : ∀ s ∈ Set.Icc 0 T, HasDerivV v (a (r s)) s) {A : ℝ} (hA : 0 ≤ A) :
    ∃ C h0, 0 ≤ C ∧ 0 < h0 ∧ ∀ {γ : Type} (c : Call ℝ (V3 ℝ × V3 ℝ) (V3 ℝ × V3 ℝ) γ) (P : γ → Prop)
      (tb : Tableau ℝ) (interp : ℝ → ℝ → V3 ℝ × V3 ℝ → V3 ℝ × V3 ℝ → ℝ → V3 ℝ × V3 ℝ)
      (err : ℝ → ℝ → V3 ℝ × V3 ℝ → V3 ℝ × V3 ℝ → V3 ℝ × V3 ℝ) (β H ctol η : ℝ) (s : Sol ℝ (V3 ℝ × V3 ℝ)),
      c.saveat.steps = true → c.saveat.t0 = true → c.saveat.t1 = false → c.saveat.ts = [] →
      c.solver = rkSolver tb interp err → tb.rows ≠ [] → RowsOk A β tb.rows 1 → c.t0 = 0 → c.t1 = T →
      Near η c.y0 (r 0, v 0) → (∀ t y, c.terms t y c.args = .ok (y.2, a y.1)) → 0 ≤ ctol →
      c.stepsize_controller.Valid c.dt0 P → 0 ≤ H → H + |β - 1| + η ≤ h0 →
      diffeqsolve ctol c = some (.ok s) → s.saved.IsChain (fun p q => q.1 - p.1 ≤ H) →
      ∀ p ∈ s.saved, 0 ≤ p.1 ∧ p.1 ≤ T ∧ Near (C * (H + |β - 1| + η)) p.2 (r p.1, v p.1) := by
  have hUo : IsOpen (Ω ×ˢ (Set.univ : Set (ℝ × ℝ × ℝ))) := hΩ.prod isOpen_univ
  have hF : ContDiffOn ℝ 1 (fieldE a) (Ω ×ˢ (Set.univ : Set (ℝ × ℝ × ℝ))) :=
    contDiff_snd.contDiffOn.prodMk (ha.comp contDiff_fst.contDiffOn fun e he => he.1)
  obtain ⟨L, M, ρ, hL, hM, hρ, htube⟩ := exists_tube (F := fieldE a) (X := fun t => toE (r t, v t)) (T := T) hUo hF
    (fun u hu => (HasDerivAt.prodMk (hasDerivAt_toP (hr u hu)) (hasDerivAt_toP (hv u hu))).hasDerivWithinAt)
    fun u hu => ⟨hin u hu, Set.mem_univ _⟩
  set K := M + L * M * (A ^ 2 + 1) with hK
  have hK0 : 0 ≤ K := by positivity
  set C := (K * T + 1) * Real.exp (L * T) with hC
  have hC0 : 0 ≤ C := by positivity
  refine ⟨C, min (ρ / (A * M + M + 1)) (ρ / (C + 1)), hC0, lt_min (by positivity) (by positivity), ?_⟩
  intro γ c P tb interp err β H ctol η s hs h0 h1 hts hsol hne hR ht0 ht1 hy hterm hc hval hH hHh hrun hch p hp
  have hη := near_nonneg hy
  have hh1 : H + |β - 1| + η ≤ ρ / (A * M + M + 1) := hHh.trans (min_le_left _ _)
  have hh2 : H + |β - 1| + η ≤ ρ / (C + 1) := hHh.trans (min_le_right _ _)
  have hβ := abs_nonneg (β - 1)
  rw [le_div_iff₀ (by positivity)] at hh1 hh2
  have hAM : 0 ≤ A * M := by positivity
  have b1 : H * A * M ≤ ρ := by nlinarith [mul_nonneg hH hAM, mul_nonneg hH hM, mul_nonneg hβ hAM, mul_nonneg hβ hM, mul_nonneg hη hAM, mul_nonneg hη hM]
  have b2 : H * M ≤ ρ := by nlinarith [mul_nonneg hH hAM, mul_nonneg hH hM, mul_nonneg hβ hAM, mul_nonneg hβ hM, mul_nonneg hη hAM, mul_nonneg hη hM]
  have hε : rkEps A β L M H ≤ K * (H + |β - 1|) := by
    unfold rkEps
    have : 0 ≤ L * M * (A ^ 2 + 1) := by positivity
    rw [hK]
    nlinarith [mul_nonneg hH hM, mul_nonneg hβ this]
  have hε0 : 0 ≤ rkEps A β L M H := by unfold rkEps; positivity
  have hεC : ∀ t, 0 ≤ t → t ≤ T → (η + rkEps A β L M H * t) * Real.exp (L * t) ≤ C * (H + |β - 1| + η) := by
    intro t ht htT
    have hS : 0 ≤ H + |β - 1| := by positivity
    have hKT : 0 ≤ K * T := by positivity
    calc (η + rkEps A β L M H * t) * Real.exp (L * t) ≤ (η + (K * (H + |β - 1|)) * T) * Real.exp (L * T) := by gcongr
      _ ≤ ((K * T + 1) * (H + |β - 1| + η)) * Real.exp (L * T) := by
        gcongr
        nlinarith [mul_nonneg hKT hη]
      _ = C * (H + |β - 1| + η) := by rw [hC]; ring
  have b3 : (η + rkEps A β L M H * c.t1) * Real.exp (L * c.t1) ≤ ρ := by
    rw [ht1]
    refine (hεC T hT.le le_rfl).trans ?_
    nlinarith
  have h01 : c.t0 < c.t1 := by rw [ht0, ht1]; exact hT
  obtain ⟨f, g, first, k, hf, hg, hi, e1, hrk, -⟩ := steps_run hs h0 h1 hts hc h01 hval hrun
  have hfφ : ∀ t y, toE (f t y) = fieldE a (toE y) := by
    intro t y
    rw [traceTerms_ok hf t y _ (hterm t y)]; rfl
  have hch' : (keptRev (c.t0, c.y0) (coreAt ctol c f g first) k).IsChain fun q p => q.1 - p.1 ≤ H := by
    rw [e1, List.isChain_reverse] at hch; exact hch
  have := rk_run (φ := toE) (f := f) (F := fieldE a) (X := fun t => toE (r t, v t)) (g := g) (P := P)
    (fun _ _ => rfl) (fun _ _ => rfl) hfφ hA hL hM hH hsol hne hR ht0 (by rw [ht1]; exact hT) (by rw [ht1]; exact htube)
    (norm_of_near hy) b1 b2 b3 hc hval hi k hrk hch'
  obtain ⟨p0, p1, p2⟩ := this.2.2.2 p (by rw [e1, List.mem_reverse] at hp; exact hp)
  rw [ht1] at p1
  exact ⟨p0, p1, near_of_norm (p2.trans (hεC _ p0 p1))⟩

end
end Adx
