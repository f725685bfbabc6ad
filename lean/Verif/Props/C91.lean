import Verif.Props.C90b
import Verif.Props.C89
import Mathlib.Analysis.ODE.PicardLindelof
import Mathlib.Analysis.Calculus.MeanValue
import Mathlib.MeasureTheory.Integral.IntervalIntegral.Periodic

/-! # C91: the zonal motion to first order

For small coefficients the motion with `J2`, `J3` and `J4` exists for as long as one likes, stays near the Kepler orbit, and the changes of
the angular momentum, the eccentricity vector and the energy are those of C90 up to the square of the coefficients. -/

namespace Adx
open Filter Topology

/-! ## Tubes -/

/-- Bounded and Lipschitz by `B` at distance `ρ` from `K`. -/
def TubeFor {E W : Type} [NormedAddCommGroup E] [NormedAddCommGroup W] (F : E → W) (K U : Set E) (B ρ : ℝ) : Prop :=
  ∀ x ∈ K, ∀ z w, ‖z - x‖ ≤ ρ → ‖w - x‖ ≤ ρ → z ∈ U ∧ ‖F z‖ ≤ B ∧ ‖F z - F w‖ ≤ B * ‖z - w‖

section
set_option linter.unusedSectionVars false
variable {E W W' : Type} [NormedAddCommGroup E] [NormedSpace ℝ E] [NormedAddCommGroup W] [NormedSpace ℝ W] [NormedAddCommGroup W']
  {K U : Set E} {B ρ ε T : ℝ}

theorem exists_tubeFor [ProperSpace E] {F : E → W} (hU : IsOpen U) (hK : IsCompact K) (hKU : K ⊆ U) (hF : ContDiffOn ℝ 1 F U) :
    ∃ B ρ, 0 ≤ B ∧ 0 < ρ ∧ TubeFor F K U B ρ := by
  obtain ⟨δ, hδ, hsub⟩ := hK.exists_cthickening_subset_open hU hKU
  have hC : IsCompact (Metric.cthickening δ K) := hK.cthickening
  have hdc : ContinuousOn (fderiv ℝ F) (Metric.cthickening δ K) := (hF.continuousOn_fderiv_of_isOpen hU le_rfl).mono hsub
  obtain ⟨M, hM⟩ := hC.exists_bound_of_continuousOn (hF.continuousOn.mono hsub)
  obtain ⟨L, hL⟩ := hC.exists_bound_of_continuousOn hdc
  have hball : ∀ x ∈ K, ∀ z, ‖z - x‖ ≤ δ → z ∈ Metric.cthickening δ K := by
    intro x hx z hz
    exact Metric.mem_cthickening_of_dist_le z x δ _ hx (by rw [dist_eq_norm]; exact hz)
  refine ⟨max (max M L) 0, δ, le_max_right _ _, hδ, fun x hx z w hz hw => ⟨hsub (hball x hx z hz), ?_, ?_⟩⟩
  · exact (hM z (hball x hx z hz)).trans ((le_max_left _ _).trans (le_max_left _ _))
  · refine Convex.norm_image_sub_le_of_norm_fderiv_le (𝕜 := ℝ) (s := Metric.closedBall x δ) (fun y hy => ?_)
      (fun y hy => ?_) (convex_closedBall _ _) ?_ ?_
    · rw [Metric.mem_closedBall, dist_eq_norm] at hy
      exact (hF.differentiableOn one_ne_zero).differentiableAt (hU.mem_nhds (hsub (hball x hx y hy)))
    · rw [Metric.mem_closedBall, dist_eq_norm] at hy
      exact (hL y (hball x hx y hy)).trans ((le_max_right _ _).trans (le_max_left _ _))
    · rw [Metric.mem_closedBall, dist_eq_norm]; exact hw
    · rw [Metric.mem_closedBall, dist_eq_norm]; exact hz

theorem TubeFor.mono {F : E → W} (h : TubeFor F K U B ρ) {B' ρ' : ℝ} (hB : B ≤ B') (hρ : ρ' ≤ ρ) : TubeFor F K U B' ρ' :=
  fun x hx z w hz hw => by
    obtain ⟨h1, h2, h3⟩ := h x hx z w (hz.trans hρ) (hw.trans hρ)
    exact ⟨h1, h2.trans hB, h3.trans (mul_le_mul_of_nonneg_right hB (norm_nonneg _))⟩

theorem TubeFor.proj {F : E → W} (h : TubeFor F K U B ρ) {l : W → W'} (hs : ∀ a b, l (a - b) = l a - l b) (hl : ∀ a, ‖l a‖ ≤ ‖a‖) :
    TubeFor (fun z => l (F z)) K U B ρ :=
  fun x hx z w hz hw => by
    obtain ⟨h1, h2, h3⟩ := h x hx z w hz hw
    exact ⟨h1, (hl _).trans h2, by rw [← hs]; exact (hl _).trans h3⟩

theorem TubeFor.comb {F G H : E → W} (hF : TubeFor F K U B ρ) (hG : TubeFor G K U B ρ) (hH : TubeFor H K U B ρ) {a b c : ℝ}
    (ha : |a| ≤ ε) (hb : |b| ≤ ε) (hc : |c| ≤ ε) : TubeFor (fun z => a • F z + b • G z + c • H z) K U (ε * (3 * B)) ρ := by
  intro x hx z w hz hw
  obtain ⟨h1, f2, f3⟩ := hF x hx z w hz hw
  obtain ⟨-, g2, g3⟩ := hG x hx z w hz hw
  obtain ⟨-, k2, k3⟩ := hH x hx z w hz hw
  have hε := (abs_nonneg a).trans ha
  have key : ∀ {a : ℝ} {u : W} {M : ℝ}, |a| ≤ ε → ‖u‖ ≤ M → ‖a • u‖ ≤ ε * M := by
    intro a u M h1 h2
    rw [norm_smul, Real.norm_eq_abs]
    exact mul_le_mul h1 h2 (norm_nonneg _) hε
  refine ⟨h1, ?_, ?_⟩
  · refine (norm_add₃_le).trans ?_
    linarith [key ha f2, key hb g2, key hc k2]
  · have e : a • F z + b • G z + c • H z - (a • F w + b • G w + c • H w) = a • (F z - F w) + b • (G z - G w) + c • (H z - H w) := by
      simp only [smul_sub]; abel
    rw [e]
    refine (norm_add₃_le).trans ?_
    have := key ha f3; have := key hb g3; have := key hc k3
    linarith

/-- A motion under a small further field stays near. -/
theorem fence {X X0 D : ℝ → E} {F P : E → E} (hB : 0 ≤ B) (hε : 0 < ε) (tF : TubeFor F K U B ρ) (tP : TubeFor P K U (ε * B) ρ)
    (hX0 : ∀ t ∈ Set.Icc 0 T, HasDerivAt X0 (F (X0 t)) t ∧ X0 t ∈ K) (hX : ∀ t ∈ Set.Icc 0 T, HasDerivAt X (D t) t)
    (hD : ∀ t ∈ Set.Icc 0 T, ‖X t - X0 t‖ ≤ ρ → D t = F (X t) + P (X t)) (h0 : X 0 = X0 0)
    (hs : ε * (B + 1) * Real.exp ((B + 1) * T) ≤ ρ) :
    ∀ t ∈ Set.Icc 0 T, ‖X t - X0 t‖ ≤ ε * (B + 1) * Real.exp ((B + 1) * t) := by
  have hd : ∀ t ∈ Set.Icc 0 T, HasDerivAt (fun t => X t - X0 t) (D t - F (X0 t)) t := fun t ht => (hX t ht).sub (hX0 t ht).1
  refine image_norm_le_of_norm_deriv_right_lt_deriv_boundary (f := fun t => X t - X0 t) (f' := fun t => D t - F (X0 t))
    (B := fun t => ε * (B + 1) * Real.exp ((B + 1) * t)) (B' := fun t => (B + 1) * (ε * (B + 1) * Real.exp ((B + 1) * t)))
    (fun t ht => (hd t ht).continuousAt.continuousWithinAt) (fun t ht => (hd t ⟨ht.1, ht.2.le⟩).hasDerivWithinAt) ?_ ?_ ?_
  · simp only [h0, sub_self, norm_zero]; positivity
  · intro t
    have := (((hasDerivAt_id t).const_mul (B + 1)).exp).const_mul (ε * (B + 1))
    refine this.congr_deriv ?_
    simp only [id]; ring
  · intro t ht hc
    have ht' : t ∈ Set.Icc 0 T := ⟨ht.1, ht.2.le⟩
    have hρ : ‖X t - X0 t‖ ≤ ρ := by
      rw [hc]
      refine le_trans ?_ hs
      gcongr
      exact ht.2.le
    have hself : ‖X0 t - X0 t‖ ≤ ρ := by rw [sub_self, norm_zero]; exact (norm_nonneg _).trans hρ
    obtain ⟨-, -, hl⟩ := tF _ (hX0 t ht').2 _ _ hρ hself
    obtain ⟨-, hb, -⟩ := tP _ (hX0 t ht').2 _ _ hρ hself
    have h1 : 1 ≤ Real.exp ((B + 1) * t) := Real.one_le_exp (mul_nonneg (by linarith) ht.1)
    have h2 : ε * (B + 1) ≤ ε * (B + 1) * Real.exp ((B + 1) * t) := le_mul_of_one_le_right (by positivity) h1
    rw [hD t ht' hρ]
    calc ‖F (X t) + P (X t) - F (X0 t)‖ = ‖(F (X t) - F (X0 t)) + P (X t)‖ := by congr 1; abel
      _ ≤ ‖F (X t) - F (X0 t)‖ + ‖P (X t)‖ := norm_add_le _ _
      _ ≤ B * ‖X t - X0 t‖ + ε * B := add_le_add hl hb
      _ < (B + 1) * (ε * (B + 1) * Real.exp ((B + 1) * t)) := by rw [hc]; nlinarith

/-- What changes only through the further field changes, to first order, as along the unperturbed motion. -/
theorem first_order {X X0 : ℝ → E} {q : E → ℝ} {φ : ℝ → ℝ} {δ : ℝ} (tq : TubeFor q K U B ρ) (hB : 0 ≤ B) (hT : 0 ≤ T)
    (hX0 : ∀ t ∈ Set.Icc 0 T, X0 t ∈ K) (hc : Continuous fun t => q (X0 t)) (hφ : ∀ t ∈ Set.Icc 0 T, HasDerivAt φ (q (X t)) t)
    (hδ : ∀ t ∈ Set.Icc 0 T, ‖X t - X0 t‖ ≤ δ) (hρ : δ ≤ ρ) : |φ T - φ 0 - ∫ t in (0 : ℝ)..T, q (X0 t)| ≤ B * δ * T := by
  have hd : ∀ t ∈ Set.Icc 0 T, HasDerivAt (fun t => φ t - ∫ s in (0 : ℝ)..t, q (X0 s)) (q (X t) - q (X0 t)) t := fun t ht =>
    (hφ t ht).sub (intervalIntegral.integral_hasDerivAt_right (hc.intervalIntegrable _ _) (hc.stronglyMeasurableAtFilter _ _) hc.continuousAt)
  have h := norm_image_sub_le_of_norm_deriv_le_segment' (a := 0) (b := T) (C := B * δ)
    (fun t ht => (hd t ht).hasDerivWithinAt) (fun t ht => ?_) T ⟨hT, le_rfl⟩
  · simp only [intervalIntegral.integral_same, sub_zero, Real.norm_eq_abs] at h
    calc _ = |φ T - (∫ s in (0 : ℝ)..T, q (X0 s)) - φ 0| := by congr 1; ring
      _ ≤ _ := h
  · have ht' : t ∈ Set.Icc 0 T := ⟨ht.1, ht.2.le⟩
    have h1 := hδ t ht'
    obtain ⟨-, -, h3⟩ := tq _ (hX0 t ht') (X t) (X0 t) (h1.trans hρ) (by rw [sub_self, norm_zero]; exact (norm_nonneg _).trans (h1.trans hρ))
    exact h3.trans (mul_le_mul_of_nonneg_left h1 hB)

end

/-! ## Existence -/

/-- The space of states in coordinates. -/
abbrev Coord := (ℝ × ℝ × ℝ) × (ℝ × ℝ × ℝ)

/-- A coordinate held between `-ρ` and `ρ`. -/
noncomputable def hold (ρ x : ℝ) : ℝ := max (-ρ) (min ρ x)

/-- All coordinates held. -/
noncomputable def holdE (ρ : ℝ) (y : Coord) : Coord :=
  ((hold ρ y.1.1, hold ρ y.1.2.1, hold ρ y.1.2.2), (hold ρ y.2.1, hold ρ y.2.2.1, hold ρ y.2.2.2))

theorem hold_eq {ρ x : ℝ} (h : |x| ≤ ρ) : hold ρ x = x := by
  rw [abs_le] at h
  rw [hold, min_eq_right h.2, max_eq_right h.1]

theorem abs_hold_le {ρ : ℝ} (hρ : 0 ≤ ρ) (x : ℝ) : |hold ρ x| ≤ ρ := by
  rw [hold, abs_le]
  exact ⟨le_max_left _ _, max_le (by linarith) (min_le_left _ _)⟩

theorem abs_hold_sub_le (ρ x y : ℝ) : |hold ρ x - hold ρ y| ≤ |x - y| := by
  rw [hold, hold]
  have h1 := abs_max_sub_max_le_abs (-ρ) (min ρ x) (-ρ)
  refine (abs_max_sub_max_le_max _ _ _ _).trans ?_
  rw [sub_self, abs_zero]
  refine max_le (abs_nonneg _) ((abs_min_sub_min_le_max _ _ _ _).trans ?_)
  rw [sub_self, abs_zero]
  exact max_le (abs_nonneg _) le_rfl

theorem norm_coord_le {y : Coord} {M : ℝ} : ‖y‖ ≤ M ↔ (|y.1.1| ≤ M ∧ |y.1.2.1| ≤ M ∧ |y.1.2.2| ≤ M) ∧ |y.2.1| ≤ M ∧ |y.2.2.1| ≤ M ∧ |y.2.2.2| ≤ M := by
  obtain ⟨⟨a, b, c⟩, d, e, f⟩ := y
  simp only [Prod.norm_mk, Real.norm_eq_abs, max_le_iff]

theorem holdE_eq {ρ : ℝ} {y : Coord} (h : ‖y‖ ≤ ρ) : holdE ρ y = y := by
  obtain ⟨⟨h1, h2, h3⟩, h4, h5, h6⟩ := norm_coord_le.1 h
  simp only [holdE, hold_eq h1, hold_eq h2, hold_eq h3, hold_eq h4, hold_eq h5, hold_eq h6]

theorem norm_holdE_le {ρ : ℝ} (hρ : 0 ≤ ρ) (y : Coord) : ‖holdE ρ y‖ ≤ ρ :=
  norm_coord_le.2 ⟨⟨abs_hold_le hρ _, abs_hold_le hρ _, abs_hold_le hρ _⟩, abs_hold_le hρ _, abs_hold_le hρ _, abs_hold_le hρ _⟩

theorem norm_holdE_sub_le (ρ : ℝ) (y z : Coord) : ‖holdE ρ y - holdE ρ z‖ ≤ ‖y - z‖ := by
  obtain ⟨⟨h1, h2, h3⟩, h4, h5, h6⟩ := norm_coord_le.1 (le_refl ‖y - z‖)
  exact norm_coord_le.2 ⟨⟨(abs_hold_sub_le _ _ _).trans h1, (abs_hold_sub_le _ _ _).trans h2, (abs_hold_sub_le _ _ _).trans h3⟩,
    (abs_hold_sub_le _ _ _).trans h4, (abs_hold_sub_le _ _ _).trans h5, (abs_hold_sub_le _ _ _).trans h6⟩

/-- Near a motion that exists for a time `T` there is one under a small further field. -/
theorem exists_near {X0 : ℝ → Coord} {F P : Coord → Coord} {K U : Set Coord} {B ρ ε T : ℝ} (hT : 0 ≤ T) (hB : 0 ≤ B) (hε : 0 < ε) (hε1 : ε ≤ 1)
    (hρ : 0 < ρ) (tF : TubeFor F K U B ρ) (tP : TubeFor P K U (ε * B) ρ) (hFc : ContinuousOn F U) (hPc : ContinuousOn P U)
    (hX0 : ∀ t ∈ Set.Icc (-1) (T + 1), HasDerivAt X0 (F (X0 t)) t ∧ X0 t ∈ K) (hs : ε * (B + 1) * Real.exp ((B + 1) * T) ≤ ρ) :
    ∃ X : ℝ → Coord, X 0 = X0 0 ∧ ∀ t ∈ Set.Icc 0 T, HasDerivAt X (F (X t) + P (X t)) t ∧ X t ∈ U := by
  set g : ℝ → Coord → Coord := fun t y => F (X0 t + holdE ρ y) + P (X0 t + holdE ρ y) - F (X0 t) with hg
  have hn : ∀ t y, ‖X0 t + holdE ρ y - X0 t‖ ≤ ρ := fun t y => by rw [add_sub_cancel_left]; exact norm_holdE_le hρ.le y
  have hself : ∀ t, ‖X0 t - X0 t‖ ≤ ρ := fun t => by rw [sub_self, norm_zero]; exact hρ.le
  have hεB : ε * B ≤ B := mul_le_of_le_one_left hB hε1
  have hlip : ∀ t ∈ Set.Icc (-1) (T + 1), ∀ y z, ‖g t y - g t z‖ ≤ 2 * B * ‖y - z‖ := by
    intro t ht y z
    obtain ⟨-, -, h1⟩ := tF _ (hX0 t ht).2 _ _ (hn t y) (hn t z)
    obtain ⟨-, -, h2⟩ := tP _ (hX0 t ht).2 _ _ (hn t y) (hn t z)
    rw [add_sub_add_left_eq_sub] at h1 h2
    have h3 := norm_holdE_sub_le ρ y z
    have e : g t y - g t z = (F (X0 t + holdE ρ y) - F (X0 t + holdE ρ z)) + (P (X0 t + holdE ρ y) - P (X0 t + holdE ρ z)) := by
      simp only [hg]; abel
    rw [e]
    refine (norm_add_le _ _).trans ?_
    have h4 := mul_le_mul_of_nonneg_left h3 hB
    have h5 := mul_le_mul_of_nonneg_right hεB (norm_nonneg (holdE ρ y - holdE ρ z))
    linarith
  have hbd : ∀ t ∈ Set.Icc (-1) (T + 1), ∀ y, ‖g t y‖ ≤ 3 * B := by
    intro t ht y
    obtain ⟨-, h1, -⟩ := tF _ (hX0 t ht).2 _ _ (hn t y) (hself t)
    obtain ⟨-, h2, -⟩ := tP _ (hX0 t ht).2 _ _ (hn t y) (hself t)
    obtain ⟨-, h3, -⟩ := tF _ (hX0 t ht).2 _ _ (hself t) (hself t)
    have h4 := norm_sub_le (F (X0 t + holdE ρ y) + P (X0 t + holdE ρ y)) (F (X0 t))
    have h5 := norm_add_le (F (X0 t + holdE ρ y)) (P (X0 t + holdE ρ y))
    simp only [hg]
    linarith
  have hX0c : ContinuousOn X0 (Set.Icc (-1) (T + 1)) := fun t ht => (hX0 t ht).1.continuousAt.continuousWithinAt
  have hcont : ∀ y, ContinuousOn (fun t => g t y) (Set.Icc (-1) (T + 1)) := by
    intro y
    have hc : ContinuousOn (fun t => X0 t + holdE ρ y) (Set.Icc (-1) (T + 1)) := hX0c.add continuousOn_const
    have hm : Set.MapsTo (fun t => X0 t + holdE ρ y) (Set.Icc (-1) (T + 1)) U := fun t ht => (tF _ (hX0 t ht).2 _ _ (hn t y) (hself t)).1
    have hm0 : Set.MapsTo X0 (Set.Icc (-1) (T + 1)) U := fun t ht => (tF _ (hX0 t ht).2 _ _ (hself t) (hself t)).1
    exact ((hFc.comp hc hm).add (hPc.comp hc hm)).sub (hFc.comp hX0c hm0)
  have hpl : IsPicardLindelof g (⟨0, by constructor <;> linarith⟩ : Set.Icc (-1) (T + 1)) (0 : Coord)
      (Real.toNNReal (3 * B * (T + 1))) 0 (Real.toNNReal (3 * B)) (Real.toNNReal (2 * B)) := by
    refine ⟨fun t ht => ?_, fun y _ => hcont y, fun t ht y _ => ?_, ?_⟩
    · refine LipschitzOnWith.of_dist_le_mul fun y _ z _ => ?_
      rw [dist_eq_norm, dist_eq_norm, Real.coe_toNNReal _ (by positivity)]
      exact hlip t ht y z
    · rw [Real.coe_toNNReal _ (by positivity)]; exact hbd t ht y
    · rw [Real.coe_toNNReal _ (by positivity), Real.coe_toNNReal _ (by positivity), NNReal.coe_zero]
      change 3 * B * max (T + 1 - 0) (0 - -1) ≤ 3 * B * (T + 1) - 0
      rw [max_eq_left (by linarith), sub_zero, sub_zero]
  obtain ⟨Y, hY0, hY⟩ := hpl.exists_eq_forall_mem_Icc_hasDerivWithinAt₀
  have hsub : ∀ t ∈ Set.Icc 0 T, t ∈ Set.Icc (-1) (T + 1) := fun t ht => ⟨by linarith [ht.1], by linarith [ht.2]⟩
  have hd : ∀ t ∈ Set.Icc 0 T, HasDerivAt (fun t => X0 t + Y t) (F (X0 t) + g t (Y t)) t := by
    intro t ht
    refine (hX0 t (hsub t ht)).1.add ((hY t (hsub t ht)).hasDerivAt ?_)
    exact Icc_mem_nhds (by linarith [ht.1]) (by linarith [ht.2])
  have hy : ∀ t, X0 t + Y t - X0 t = Y t := fun t => add_sub_cancel_left _ _
  have hg' : ∀ t, ‖X0 t + Y t - X0 t‖ ≤ ρ → F (X0 t) + g t (Y t) = F (X0 t + Y t) + P (X0 t + Y t) := by
    intro t h
    rw [hy] at h
    simp only [hg, holdE_eq h]
    abel
  have hY0' : Y 0 = 0 := hY0
  have hf := fence (X := fun t => X0 t + Y t) (X0 := X0) hB hε tF tP (fun t ht => hX0 t (hsub t ht)) hd (fun t _ h => hg' t h)
    (by simp only [hY0', add_zero]) hs
  refine ⟨fun t => X0 t + Y t, by simp only [hY0', add_zero], fun t ht => ?_⟩
  have hle : ‖X0 t + Y t - X0 t‖ ≤ ρ := (hf t ht).trans (le_trans (by gcongr; exact ht.2) hs)
  refine ⟨?_, (tF _ (hX0 t (hsub t ht)).2 _ _ hle (hself t)).1⟩
  have := hd t ht
  rw [hg' t hle] at this
  exact this

/-! ## The zonal terms -/

open V3 Spec

/-- The arguments with all coefficients one. -/
def unitArgs (mu R : ℝ) : Args ℝ := fun k => if k = "mu" then some mu else if k = "R_eq" then some R else some 1

section
variable {args : Args ℝ} {mu J2 J3 J4 R : ℝ}

theorem unit_j2 (hm : args "mu" = some mu) (hR : args "R_eq" = some R) (h2 : args "J2" = some J2) (p : V3 ℝ) :
    accOf j2_acc args p = J2 • accOf j2_acc (unitArgs mu R) p := by
  simp only [accOf, j2_acc, Args.get, hm, h2, hR, unitArgs, Bind.bind, Except.bind, pure, Except.pure, reduceIte, String.reduceEq]
  ext <;> simp only [smul_x, smul_y, smul_z] <;> ring

theorem unit_j3 (hm : args "mu" = some mu) (hR : args "R_eq" = some R) (h3 : args "J3" = some J3) (p : V3 ℝ) :
    accOf j3_acc args p = J3 • accOf j3_acc (unitArgs mu R) p := by
  simp only [accOf, j3_acc, Args.get, hm, h3, hR, unitArgs, Bind.bind, Except.bind, pure, Except.pure, reduceIte, String.reduceEq]
  ext <;> simp only [smul_x, smul_y, smul_z] <;> ring

theorem unit_j4 (hm : args "mu" = some mu) (hR : args "R_eq" = some R) (h4 : args "J4" = some J4) (p : V3 ℝ) :
    accOf j4_acc args p = J4 • accOf j4_acc (unitArgs mu R) p := by
  simp only [accOf, j4_acc, Args.get, hm, h4, hR, unitArgs, Bind.bind, Except.bind, pure, Except.pure, reduceIte, String.reduceEq]
  ext <;> simp only [smul_x, smul_y, smul_z] <;> ring

end

/-- What a further acceleration `a` does to a state: to the state, its angular momentum, its eccentricity vector and its energy. -/
noncomputable def effect (mu : ℝ) (a : V3 ℝ → V3 ℝ) (e : Coord) : Coord × (ℝ × ℝ × ℝ) × (ℝ × ℝ × ℝ) × ℝ :=
  (((0, 0, 0), toP (a (ofP e.1))), toP (V3.cross (ofP e.1) (a (ofP e.1))),
    toP ((1 / mu) • (V3.cross (a (ofP e.1)) (angular_momentum (ofP e.1) (ofP e.2)) + V3.cross (ofP e.2) (V3.cross (ofP e.1) (a (ofP e.1))))),
    V3.dot (a (ofP e.1)) (ofP e.2))

theorem effect_smooth (mu : ℝ) {a : V3 ℝ → V3 ℝ} (ha : ContDiffOn ℝ 1 (fun p => toP (a (ofP p))) {p | p ≠ 0}) :
    ContDiffOn ℝ 1 (effect mu a) ({p : ℝ × ℝ × ℝ | p ≠ 0} ×ˢ (Set.univ : Set (ℝ × ℝ × ℝ))) := by
  have h : ContDiffOn ℝ 1 (fun e : Coord => toP (a (ofP e.1))) ({p : ℝ × ℝ × ℝ | p ≠ 0} ×ˢ (Set.univ : Set (ℝ × ℝ × ℝ))) :=
    ha.comp contDiff_fst.contDiffOn fun _ he => he.1
  have hx : ContDiffOn ℝ 1 (fun e : Coord => (a (ofP e.1)).x) ({p : ℝ × ℝ × ℝ | p ≠ 0} ×ˢ (Set.univ : Set (ℝ × ℝ × ℝ))) := h.fst
  have hy : ContDiffOn ℝ 1 (fun e : Coord => (a (ofP e.1)).y) ({p : ℝ × ℝ × ℝ | p ≠ 0} ×ˢ (Set.univ : Set (ℝ × ℝ × ℝ))) := h.snd.fst
  have hz : ContDiffOn ℝ 1 (fun e : Coord => (a (ofP e.1)).z) ({p : ℝ × ℝ × ℝ | p ≠ 0} ×ˢ (Set.univ : Set (ℝ × ℝ × ℝ))) := h.snd.snd
  unfold effect
  simp only [toP, angular_momentum, V3.cross, V3.dot, add_x, add_y, add_z, smul_x, smul_y, smul_z, ofP] at hx hy hz ⊢
  fun_prop

theorem unit_smooth (mu R : ℝ) : ContDiffOn ℝ 1 (fun p => toP (accOf j2_acc (unitArgs mu R) (ofP p))) {p | p ≠ 0} ∧
    ContDiffOn ℝ 1 (fun p => toP (accOf j3_acc (unitArgs mu R) (ofP p))) {p | p ≠ 0} ∧
    ContDiffOn ℝ 1 (fun p => toP (accOf j4_acc (unitArgs mu R) (ofP p))) {p | p ≠ 0} := by
  have hm : unitArgs mu R "mu" = some mu := rfl
  have hR : unitArgs mu R "R_eq" = some R := rfl
  have h2 : unitArgs mu R "J2" = some 1 := rfl
  have h3 : unitArgs mu R "J3" = some 1 := rfl
  have h4 : unitArgs mu R "J4" = some 1 := rfl
  exact ⟨(smooth_j2 hm hR h2).smooth, (smooth_j3 hm hR h3).smooth, (smooth_j4 hm hR h4).smooth⟩

/-- The zonal terms together. -/
noncomputable def zonalTerms (args : Args ℝ) (p : V3 ℝ) : V3 ℝ := accOf j2_acc args p + accOf j3_acc args p + accOf j4_acc args p

/-- The rate of the angular momentum under the acceleration `a`. -/
noncomputable def momentumRate (a : V3 ℝ → V3 ℝ) (s : V3 ℝ × V3 ℝ) : V3 ℝ := V3.cross s.1 (a s.1)

/-- The rate of the eccentricity vector under the acceleration `a`. -/
noncomputable def eccentricityRate (mu : ℝ) (a : V3 ℝ → V3 ℝ) (s : V3 ℝ × V3 ℝ) : V3 ℝ :=
  (1 / mu) • (V3.cross (a s.1) (angular_momentum s.1 s.2) + V3.cross s.2 (V3.cross s.1 (a s.1)))

/-- The power of the acceleration `a`. -/
noncomputable def powerOf (a : V3 ℝ → V3 ℝ) (s : V3 ℝ × V3 ℝ) : ℝ := V3.dot (a s.1) s.2

/-- The energy of the Kepler motion, per mass. -/
noncomputable def keplerEnergy (mu : ℝ) (s : V3 ℝ × V3 ℝ) : ℝ := V3.norm s.2 ^ 2 / 2 - mu / V3.norm s.1

/-- The motion `r`, `v` is the Kepler motion through `s` up to `C ε` for the time `T`, and what is constant for the latter has changed as
C90 says up to `C ε ^ 2`. -/
structure FirstOrder (args : Args ℝ) (mu T C ε : ℝ) (s : V3 ℝ × V3 ℝ) (r v : ℝ → V3 ℝ) : Prop where
  /-- near -/
  near : ∀ t ∈ Set.Icc 0 T, Near (C * ε) (r t, v t) (exactProp s.1 s.2 mu t)
  /-- angular momentum -/
  momentum : V3.norm (angular_momentum (r T) (v T) - angular_momentum s.1 s.2
    - intV 0 T fun t => momentumRate (zonalTerms args) (exactProp s.1 s.2 mu t)) ≤ C * ε ^ 2
  /-- eccentricity vector -/
  eccentricity : V3.norm (eccentricity_vector (r T) (v T) mu - eccentricity_vector s.1 s.2 mu
    - intV 0 T fun t => eccentricityRate mu (zonalTerms args) (exactProp s.1 s.2 mu t)) ≤ C * ε ^ 2
  /-- energy -/
  energy : |keplerEnergy mu (r T, v T) - keplerEnergy mu s
    - ∫ t in (0 : ℝ)..T, powerOf (zonalTerms args) (exactProp s.1 s.2 mu t)| ≤ C * ε ^ 2

theorem norm_le_sum (a : V3 ℝ) : V3.norm a ≤ |a.x| + |a.y| + |a.z| := by
  have e : V3.norm a = Real.sqrt (a.x * a.x + a.y * a.y + a.z * a.z) := rfl
  rw [e]
  refine Real.sqrt_le_iff.2 ⟨by positivity, ?_⟩
  have h1 := abs_mul_abs_self a.x; have h2 := abs_mul_abs_self a.y; have h3 := abs_mul_abs_self a.z
  have := mul_nonneg (abs_nonneg a.x) (abs_nonneg a.y)
  have := mul_nonneg (abs_nonneg a.y) (abs_nonneg a.z)
  have := mul_nonneg (abs_nonneg a.x) (abs_nonneg a.z)
  nlinarith

theorem energy_rate {mu t : ℝ} {f : V3 ℝ} {q w : ℝ → V3 ℝ} (h : PerturbedAt mu f q w t) :
    HasDerivAt (fun t => keplerEnergy mu (q t, w t)) (V3.dot f (w t)) t := by
  have hn := ((norm_pos _).2 h.avoid).ne'
  have e : (fun t => keplerEnergy mu (q t, w t)) = fun t => V3.dot (w t) (w t) / 2 - mu * (V3.norm (q t))⁻¹ := by
    funext t; simp only [keplerEnergy, norm_sq]; ring
  rw [e]
  refine (((h.vel.dot h.vel).div_const 2).fun_sub (((h.pos.norm hn).fun_inv hn).const_mul mu)).congr_deriv ?_
  simp only [V3.dot, add_x, add_y, add_z, smul_x, smul_y, smul_z]
  field_simp
  ring

/-- C91: for all coefficients up to `ε`, small enough, the motion exists for the time `T`, and every such motion is to first order that of C90. -/
theorem C91_first_order {r0 v0 : V3 ℝ} {mu : ℝ} (R : ℝ) {T : ℝ} (hmu : 0 < mu) (hh : angular_momentum r0 v0 ≠ ⟨0, 0, 0⟩) (hT : 0 ≤ T) :
    ∃ C ε0, 0 ≤ C ∧ 0 < ε0 ∧ ∀ ε, 0 < ε → ε ≤ ε0 → ∀ (args : Args ℝ) (J2 J3 J4 : ℝ), args "mu" = some mu → args "R_eq" = some R →
      args "J2" = some J2 → args "J3" = some J3 → args "J4" = some J4 → |J2| ≤ ε → |J3| ≤ ε → |J4| ≤ ε →
      (∃ r v : ℝ → V3 ℝ, r 0 = r0 ∧ v 0 = v0 ∧ Motion zonalForce args (Set.Icc 0 T) r v) ∧
      ∀ r v : ℝ → V3 ℝ, r 0 = r0 → v 0 = v0 → Motion zonalForce args (Set.Icc 0 T) r v → FirstOrder args mu T C ε (r0, v0) r v := by
  obtain ⟨hz, hk⟩ := C21_solves_two_body hmu hh
  obtain ⟨s2, s3, s4⟩ := unit_smooth mu R
  set U : Set Coord := {p : ℝ × ℝ × ℝ | p ≠ 0} ×ˢ (Set.univ : Set (ℝ × ℝ × ℝ)) with hU
  set X0 : ℝ → Coord := fun t => toE (exactProp r0 v0 mu t) with hX0
  have hm0 : unitArgs mu R "mu" = some mu := rfl
  set F : Coord → Coord := fieldE (accOf point_mass_grav (unitArgs mu R)) with hF
  have hFs : ContDiffOn ℝ 1 F U := field_smooth (smooth_point_mass hm0)
  have epm : ∀ {args : Args ℝ}, args "mu" = some mu → ∀ p, accOf point_mass_grav args p = (-(mu / V3.norm p ^ 3)) • p := by
    intro args hm p; rw [accOf, C41_point_mass_is_newton 0 mu _ args hm]
  have hXd : ∀ t, HasDerivAt X0 (F (X0 t)) t := by
    intro t
    obtain ⟨-, h1, h2⟩ := hk t trivial
    refine (hasDerivAt_toP h1).prodMk ?_
    have := hasDerivAt_toP h2
    refine this.congr_deriv ?_
    simp only [hX0, toE, ofP_toP, epm hm0, neg_div,
      show ∀ p : V3 ℝ, Real.sqrt (p.x ^ 2 + p.y ^ 2 + p.z ^ 2) = V3.norm p from fun p => radius_eq_norm p]
  have hXU : ∀ t, X0 t ∈ U := fun t => ⟨toP_ne (hk t trivial).1, Set.mem_univ _⟩
  have hXc : Continuous X0 := continuous_iff_continuousAt.2 fun t => (hXd t).continuousAt
  set K : Set Coord := X0 '' Set.Icc (-1) (T + 1) with hK
  have hKc : IsCompact K := isCompact_Icc.image hXc
  have hKU : K ⊆ U := by rintro _ ⟨t, -, rfl⟩; exact hXU t
  have hUo : IsOpen U := domain_open
  obtain ⟨B1, ρ1, hB1, hρ1, t1⟩ := exists_tubeFor hUo hKc hKU hFs
  obtain ⟨B2, ρ2, hB2, hρ2, t2⟩ := exists_tubeFor hUo hKc hKU (effect_smooth mu s2)
  obtain ⟨B3, ρ3, hB3, hρ3, t3⟩ := exists_tubeFor hUo hKc hKU (effect_smooth mu s3)
  obtain ⟨B4, ρ4, hB4, hρ4, t4⟩ := exists_tubeFor hUo hKc hKU (effect_smooth mu s4)
  set B0 := max (max B1 B2) (max B3 B4) with hB0
  set ρ := min (min ρ1 ρ2) (min ρ3 ρ4) with hρ
  have hρ0 : 0 < ρ := lt_min (lt_min hρ1 hρ2) (lt_min hρ3 hρ4)
  have hB00 : 0 ≤ B0 := hB1.trans ((le_max_left _ _).trans (le_max_left _ _))
  replace t1 := t1.mono (B' := 3 * B0) (ρ' := ρ) (by linarith [(le_max_left B1 B2).trans (le_max_left _ (max B3 B4))])
    ((min_le_left _ _).trans (min_le_left _ _))
  replace t2 := t2.mono (B' := B0) (ρ' := ρ) ((le_max_right _ _).trans (le_max_left _ _)) ((min_le_left _ _).trans (min_le_right _ _))
  replace t3 := t3.mono (B' := B0) (ρ' := ρ) ((le_max_left _ _).trans (le_max_right _ _)) ((min_le_right _ _).trans (min_le_left _ _))
  replace t4 := t4.mono (B' := B0) (ρ' := ρ) ((le_max_right _ _).trans (le_max_right _ _)) ((min_le_right _ _).trans (min_le_right _ _))
  set B := 3 * B0 with hB
  have hBn : 0 ≤ B := by positivity
  set D := (B + 1) * Real.exp ((B + 1) * T) with hD
  have hD0 : 0 < D := by positivity
  have hmemK : ∀ t ∈ Set.Icc 0 T, X0 t ∈ K := fun t ht => ⟨t, ⟨by linarith [ht.1], by linarith [ht.2]⟩, rfl⟩
  refine ⟨max D (3 * (B * D * T)), min 1 (ρ / D), hD0.le.trans (le_max_left _ _), lt_min one_pos (by positivity), ?_⟩
  intro ε hε hε0 args J2 J3 J4 hm hR h2 h3 h4 b2 b3 b4
  have hε1 : ε ≤ 1 := hε0.trans (min_le_left _ _)
  have hεD : ε * D ≤ ρ := (le_div_iff₀ hD0).1 (hε0.trans (min_le_right _ _))
  have hs : ε * (B + 1) * Real.exp ((B + 1) * T) ≤ ρ := by rw [mul_assoc]; exact hεD
  set Q : Coord → Coord × (ℝ × ℝ × ℝ) × (ℝ × ℝ × ℝ) × ℝ := fun z => J2 • effect mu (accOf j2_acc (unitArgs mu R)) z
    + J3 • effect mu (accOf j3_acc (unitArgs mu R)) z + J4 • effect mu (accOf j4_acc (unitArgs mu R)) z with hQ
  have tQ : TubeFor Q K U (ε * B) ρ := t2.comb t3 t4 b2 b3 b4
  have hQs : ContDiffOn ℝ 1 Q U := (((effect_smooth mu s2).const_smul J2).add ((effect_smooth mu s3).const_smul J3)).add
    ((effect_smooth mu s4).const_smul J4)
  have hQe : ∀ z, Q z = effect mu (zonalTerms args) z := by
    intro z
    simp only [hQ, effect, zonalTerms, unit_j2 hm hR h2, unit_j3 hm hR h3, unit_j4 hm hR h4, toP, angular_momentum, V3.cross, V3.dot,
      add_x, add_y, add_z, smul_x, smul_y, smul_z, Prod.smul_mk, Prod.mk_add_mk, smul_eq_mul, Prod.mk.injEq]
    refine ⟨by simp, ⟨?_, ?_, ?_⟩, ⟨?_, ?_, ?_⟩, ?_⟩ <;> ring
  have tP : TubeFor (fun z => (Q z).1) K U (ε * B) ρ := tQ.proj (l := Prod.fst) (fun _ _ => rfl) norm_fst_le
  have hfield : ∀ y : V3 ℝ × V3 ℝ, F (toE y) + (Q (toE y)).1 = fieldE (accOf zonalForce args) (toE y) := by
    intro y
    rw [hQe, hF]
    simp only [fieldE, effect, accOf_zonal hm h2 h4 hR h3, zonalTerms, toE, toP, epm hm, epm hm0, add_x, add_y, add_z, Prod.mk_add_mk,
      Prod.mk.injEq, add_zero]
    refine ⟨trivial, ?_, ?_, ?_⟩ <;> ring
  have hZ := smooth_zonal hm h2 h4 hR h3
  constructor
  · obtain ⟨X, e0, hX⟩ := exists_near hT hBn hε hε1 hρ0 t1 tP hFs.continuousOn hQs.continuousOn.fst
      (fun t ht => ⟨hXd t, Set.mem_image_of_mem X0 ht⟩) hs
    refine ⟨fun t => ofP (X t).1, fun t => ofP (X t).2, ?_, ?_, ?_⟩
    · simp only [e0, hX0, hz]; rfl
    · simp only [e0, hX0, hz]; rfl
    · have hd : ∀ t ∈ Set.Icc 0 T, HasDerivAt X (fieldE (accOf zonalForce args) (X t)) t := by
        intro t ht
        have := (hX t ht).1
        rw [show X t = toE (ofP (X t).1, ofP (X t).2) from rfl, hfield] at this
        exact this
      refine ⟨fun t ht h0 => (hX t ht).2.1 ?_, fun t ht => ?_, fun t ht => ⟨_, [], hZ.ok _ _, ?_⟩⟩
      · rw [show (X t).1 = toP (ofP (X t).1) from rfl, h0]; rfl
      · have := hd t ht
        exact ⟨this.fst.fst, this.fst.snd.fst, this.fst.snd.snd⟩
      · have := hd t ht
        exact ⟨this.snd.fst, this.snd.snd.fst, this.snd.snd.snd⟩
  · intro r v er ev hmot
    have hd : ∀ t ∈ Set.Icc 0 T, HasDerivAt (fun t => toE (r t, v t)) (F (toE (r t, v t)) + (Q (toE (r t, v t))).1) t := by
      intro t ht
      rw [hfield]
      exact (hasDerivAt_toP (hmot.pos t ht)).prodMk (hasDerivAt_toP (hmot.field hZ ht))
    have hcl := fence (X := fun t => toE (r t, v t)) (X0 := X0) hBn hε t1 tP (fun t ht => ⟨hXd t, hmemK t ht⟩) hd (fun _ _ _ => rfl)
      (by simp only [hX0, er, ev, hz]) hs
    have hδ : ∀ t ∈ Set.Icc 0 T, ‖toE (r t, v t) - X0 t‖ ≤ ε * D := by
      intro t ht
      refine (hcl t ht).trans ?_
      rw [hD, ← mul_assoc]
      gcongr
      exact ht.2
    have hpa : ∀ t ∈ Set.Icc 0 T, PerturbedAt mu (zonalTerms args (r t)) r v t := by
      intro t ht
      refine ⟨hmot.avoid t ht, hmot.pos t ht, ?_⟩
      have h := hmot.field hZ ht
      have e : accOf zonalForce args (r t) = (-(mu / V3.norm (r t) ^ 3)) • r t + zonalTerms args (r t) := by
        rw [accOf_zonal hm h2 h4 hR h3, epm hm, zonalTerms]
        ext <;> simp only [add_x, add_y, add_z] <;> ring
      rw [e] at h
      exact h
    have main : ∀ (l : Coord × (ℝ × ℝ × ℝ) × (ℝ × ℝ × ℝ) × ℝ → ℝ), (∀ a b, l (a - b) = l a - l b) → (∀ a, ‖l a‖ ≤ ‖a‖) → Continuous l →
        ∀ φ : ℝ → ℝ, (∀ t ∈ Set.Icc 0 T, HasDerivAt φ (l (effect mu (zonalTerms args) (toE (r t, v t)))) t) →
        |φ T - φ 0 - ∫ t in (0 : ℝ)..T, l (effect mu (zonalTerms args) (X0 t))| ≤ B * D * T * ε ^ 2 := by
      intro l hl hl' hlc φ hφ
      have hc : Continuous fun t => l (Q (X0 t)) := hlc.comp (hQs.continuousOn.comp_continuous hXc hXU)
      have := first_order (X := fun t => toE (r t, v t)) (X0 := X0) (φ := φ) (tQ.proj hl hl') (by positivity) hT hmemK hc
        (fun t ht => by rw [hQe]; exact hφ t ht) hδ hεD
      simp only [hQe] at this
      calc _ ≤ _ := this
        _ = _ := by ring
    have hC1 : B * D * T * ε ^ 2 ≤ max D (3 * (B * D * T)) * ε ^ 2 := by
      refine mul_le_mul_of_nonneg_right ?_ (sq_nonneg _)
      have : 0 ≤ B * D * T := by positivity
      exact le_trans (by linarith) (le_max_right _ _)
    have hC3 : 3 * (B * D * T * ε ^ 2) ≤ max D (3 * (B * D * T)) * ε ^ 2 := by
      rw [← mul_assoc]
      exact mul_le_mul_of_nonneg_right (le_max_right _ _) (sq_nonneg _)
    have hmom : ∀ t ∈ Set.Icc 0 T, _ := fun t ht => C88_momentum (hpa t ht)
    have hecc : ∀ t ∈ Set.Icc 0 T, _ := fun t ht => C88_eccentricity (hpa t ht) hmu.ne'
    refine ⟨fun t ht => near_of_norm ((hδ t ht).trans ?_), ?_, ?_, ?_⟩
    · rw [mul_comm]; exact mul_le_mul_of_nonneg_right (le_max_left _ _) hε.le
    · have m1 := main (fun w => w.2.1.1) (fun _ _ => rfl) (fun a => (norm_fst_le a.2.1).trans ((norm_fst_le a.2).trans (norm_snd_le a)))
        (by fun_prop) _ fun t ht => (hmom t ht).x
      have m2 := main (fun w => w.2.1.2.1) (fun _ _ => rfl)
        (fun a => (norm_fst_le a.2.1.2).trans ((norm_snd_le a.2.1).trans ((norm_fst_le a.2).trans (norm_snd_le a))))
        (by fun_prop) _ fun t ht => (hmom t ht).y
      have m3 := main (fun w => w.2.1.2.2) (fun _ _ => rfl)
        (fun a => (norm_snd_le a.2.1.2).trans ((norm_snd_le a.2.1).trans ((norm_fst_le a.2).trans (norm_snd_le a))))
        (by fun_prop) _ fun t ht => (hmom t ht).z
      rw [er, ev] at m1 m2 m3
      refine (norm_le_sum _).trans (le_trans ?_ hC3)
      have := add_le_add (add_le_add m1 m2) m3
      refine le_trans (le_of_eq ?_) (this.trans (le_of_eq (by ring)))
      rfl
    · have m1 := main (fun w => w.2.2.1.1) (fun _ _ => rfl)
        (fun a => (norm_fst_le a.2.2.1).trans ((norm_fst_le a.2.2).trans ((norm_snd_le a.2).trans (norm_snd_le a))))
        (by fun_prop) _ fun t ht => (hecc t ht).x
      have m2 := main (fun w => w.2.2.1.2.1) (fun _ _ => rfl)
        (fun a => (norm_fst_le a.2.2.1.2).trans ((norm_snd_le a.2.2.1).trans ((norm_fst_le a.2.2).trans ((norm_snd_le a.2).trans (norm_snd_le a)))))
        (by fun_prop) _ fun t ht => (hecc t ht).y
      have m3 := main (fun w => w.2.2.1.2.2) (fun _ _ => rfl)
        (fun a => (norm_snd_le a.2.2.1.2).trans ((norm_snd_le a.2.2.1).trans ((norm_fst_le a.2.2).trans ((norm_snd_le a.2).trans (norm_snd_le a)))))
        (by fun_prop) _ fun t ht => (hecc t ht).z
      rw [er, ev] at m1 m2 m3
      refine (norm_le_sum _).trans (le_trans ?_ hC3)
      have := add_le_add (add_le_add m1 m2) m3
      refine le_trans (le_of_eq ?_) (this.trans (le_of_eq (by ring)))
      rfl
    · have m := main (fun w => w.2.2.2) (fun _ _ => rfl) (fun a => (norm_snd_le a.2.2).trans ((norm_snd_le a.2).trans (norm_snd_le a)))
        (by fun_prop) _ fun t ht => energy_rate (hpa t ht)
      rw [er, ev] at m
      exact m.trans hC1

/-! ## Over one period -/

theorem intV_add {a b : ℝ} {F G : ℝ → V3 ℝ} (hF : ContV F) (hG : ContV G) : intV a b (fun t => F t + G t) = intV a b F + intV a b G := by
  ext <;> simp only [intV, add_x, add_y, add_z]
  · exact intervalIntegral.integral_add (hF.x.intervalIntegrable _ _) (hG.x.intervalIntegrable _ _)
  · exact intervalIntegral.integral_add (hF.y.intervalIntegrable _ _) (hG.y.intervalIntegrable _ _)
  · exact intervalIntegral.integral_add (hF.z.intervalIntegrable _ _) (hG.z.intervalIntegrable _ _)

section
variable {args : Args ℝ} {mu J2 J3 J4 R : ℝ} (hm : args "mu" = some mu) (hR : args "R_eq" = some R)
  (h2 : args "J2" = some J2) (h3 : args "J3" = some J3) (h4 : args "J4" = some J4)
include hm hR h2 h3 h4

theorem field_j2 : IsField j2_acc args (accOf j2_acc args) := fun t rest p => (smooth_j2 hm hR h2).ok t ⟨p, rest⟩
theorem field_j3 : IsField j3_acc args (accOf j3_acc args) := fun t rest p => (smooth_j3 hm hR h3).ok t ⟨p, rest⟩
theorem field_j4 : IsField j4_acc args (accOf j4_acc args) := fun t rest p => (smooth_j4 hm hR h4).ok t ⟨p, rest⟩

/-- The first-order changes are the sums of those of the three terms. -/
theorem rates_split {r0 v0 : V3 ℝ} (hmu : 0 < mu) (hh : angular_momentum r0 v0 ≠ ⟨0, 0, 0⟩) (T : ℝ) :
    (intV 0 T fun t => momentumRate (zonalTerms args) (exactProp r0 v0 mu t))
      = (intV 0 T fun t => momentumRate (accOf j2_acc args) (exactProp r0 v0 mu t))
      + (intV 0 T fun t => momentumRate (accOf j3_acc args) (exactProp r0 v0 mu t))
      + (intV 0 T fun t => momentumRate (accOf j4_acc args) (exactProp r0 v0 mu t)) ∧
    (intV 0 T fun t => eccentricityRate mu (zonalTerms args) (exactProp r0 v0 mu t))
      = (intV 0 T fun t => eccentricityRate mu (accOf j2_acc args) (exactProp r0 v0 mu t))
      + (intV 0 T fun t => eccentricityRate mu (accOf j3_acc args) (exactProp r0 v0 mu t))
      + (intV 0 T fun t => eccentricityRate mu (accOf j4_acc args) (exactProp r0 v0 mu t)) ∧
    (∫ t in (0 : ℝ)..T, powerOf (zonalTerms args) (exactProp r0 v0 mu t))
      = (∫ t in (0 : ℝ)..T, powerOf (accOf j2_acc args) (exactProp r0 v0 mu t))
      + (∫ t in (0 : ℝ)..T, powerOf (accOf j3_acc args) (exactProp r0 v0 mu t))
      + ∫ t in (0 : ℝ)..T, powerOf (accOf j4_acc args) (exactProp r0 v0 mu t) := by
  have hk := (C21_solves_two_body hmu hh).2
  have cq : ContV fun t => (exactProp r0 v0 mu t).1 := .of_deriv fun t => (hk t trivial).2.1
  have cv : ContV fun t => (exactProp r0 v0 mu t).2 := .of_deriv fun t => (hk t trivial).2.2
  have c2 := cq.zonal hm hR (.inl ⟨h2, field_j2 hm hR h2 h3 h4⟩) fun t => (hk t trivial).1
  have c3 := cq.zonal hm hR (.inr (.inl ⟨h3, field_j3 hm hR h2 h3 h4⟩)) fun t => (hk t trivial).1
  have c4 := cq.zonal hm hR (.inr (.inr ⟨h4, field_j4 hm hR h2 h3 h4⟩)) fun t => (hk t trivial).1
  have cm : ∀ {a : V3 ℝ → V3 ℝ}, ContV (fun t => a (exactProp r0 v0 mu t).1) →
      ContV fun t => momentumRate a (exactProp r0 v0 mu t) := fun h => cq.cross h
  have ce : ∀ {a : V3 ℝ → V3 ℝ}, ContV (fun t => a (exactProp r0 v0 mu t).1) →
      ContV fun t => eccentricityRate mu a (exactProp r0 v0 mu t) := fun h =>
    .smul continuous_const ((h.cross (cq.cross cv)).add (cv.cross (cq.cross h)))
  have cp : ∀ {a : V3 ℝ → V3 ℝ}, ContV (fun t => a (exactProp r0 v0 mu t).1) →
      Continuous fun t => powerOf a (exactProp r0 v0 mu t) := fun h => ((h.x.mul cv.x).add (h.y.mul cv.y)).add (h.z.mul cv.z)
  refine ⟨?_, ?_, ?_⟩
  · rw [← intV_add (cm c2) (cm c3), ← intV_add ((cm c2).add (cm c3)) (cm c4)]
    congr 1; funext t
    ext <;> simp only [momentumRate, zonalTerms, V3.cross, add_x, add_y, add_z] <;> ring
  · rw [← intV_add (ce c2) (ce c3), ← intV_add ((ce c2).add (ce c3)) (ce c4)]
    congr 1; funext t
    ext <;> simp only [eccentricityRate, zonalTerms, V3.cross, angular_momentum, add_x, add_y, add_z, smul_x, smul_y, smul_z] <;> ring
  · have c23 : Continuous fun t => powerOf (accOf j2_acc args) (exactProp r0 v0 mu t) + powerOf (accOf j3_acc args) (exactProp r0 v0 mu t) :=
      (cp c2).add (cp c3)
    rw [← intervalIntegral.integral_add ((cp c2).intervalIntegrable _ _) ((cp c3).intervalIntegrable _ _),
      ← intervalIntegral.integral_add (c23.intervalIntegrable _ _) ((cp c4).intervalIntegrable _ _)]
    congr 1; funext t
    simp only [powerOf, zonalTerms, V3.dot, add_x, add_y, add_z]; ring

end

/-- The first-order changes over the period with `J2` alone. -/
theorem oblate_rates {r0 v0 : V3 ℝ} {mu R J : ℝ} (hmu : 0 < mu) (hh : angular_momentum r0 v0 ≠ ⟨0, 0, 0⟩)
    (hell : V3.norm (eccentricity_vector r0 v0 mu) < 1) {args : Args ℝ} (hm : args "mu" = some mu) (hR : args "R_eq" = some R)
    (h2 : args "J2" = some J) (h3 : args "J3" = some 0) (h4 : args "J4" = some 0) :
    let T := orb_period (semimajor_axis (V3.norm r0) (V3.norm v0) mu) mu
    let k := Real.pi * (R / semiparameter (V3.norm (angular_momentum r0 v0)) mu) ^ 2
    let c := Real.cos (inclination (angular_momentum r0 v0))
    (intV 0 T fun t => momentumRate (zonalTerms args) (exactProp r0 v0 mu t))
      = (-(3 * k * J * c)) • V3.cross ⟨0, 0, 1⟩ (angular_momentum r0 v0) ∧
    (intV 0 T fun t => eccentricityRate mu (zonalTerms args) (exactProp r0 v0 mu t))
      = (-(3 * k * J * c)) • V3.cross ⟨0, 0, 1⟩ (eccentricity_vector r0 v0 mu)
            + (3 / 2 * k * J * (5 * c ^ 2 - 1) / V3.norm (angular_momentum r0 v0)) •
              V3.cross (angular_momentum r0 v0) (eccentricity_vector r0 v0 mu) ∧
    (∫ t in (0 : ℝ)..T, powerOf (zonalTerms args) (exactProp r0 v0 mu t)) = 0 := by
  intro T k c
  have z3 : accOf j3_acc args = fun _ => ⟨0, 0, 0⟩ := by
    funext p
    rw [unit_j3 hm hR h3]; ext <;> simp
  have z4 : accOf j4_acc args = fun _ => ⟨0, 0, 0⟩ := by
    funext p
    rw [unit_j4 hm hR h4]; ext <;> simp
  have hf2 := field_j2 hm hR h2 h3 h4
  obtain ⟨s1, s2, s3⟩ := rates_split hm hR h2 h3 h4 hmu hh T
  have e1 : (intV 0 T fun t => momentumRate (zonalTerms args) (exactProp r0 v0 mu t))
      = (-(3 * k * J * c)) • V3.cross ⟨0, 0, 1⟩ (angular_momentum r0 v0) := by
    rw [s1, z3, z4]
    have := C90_node hmu hh hell hf2 hm h2 hR
    have e0 : (intV 0 T fun t => momentumRate (fun _ => ⟨0, 0, 0⟩) (exactProp r0 v0 mu t)) = ⟨0, 0, 0⟩ := by
      simp [intV, momentumRate, V3.cross]
    rw [e0]
    change intV 0 T (fun t => momentumRate (accOf j2_acc args) (exactProp r0 v0 mu t)) = _ at this
    rw [this]
    ext <;> simp only [add_x, add_y, add_z, smul_x, smul_y, smul_z, add_zero, k, c] <;> ring
  have e2 : (intV 0 T fun t => eccentricityRate mu (zonalTerms args) (exactProp r0 v0 mu t))
      = (-(3 * k * J * c)) • V3.cross ⟨0, 0, 1⟩ (eccentricity_vector r0 v0 mu)
            + (3 / 2 * k * J * (5 * c ^ 2 - 1) / V3.norm (angular_momentum r0 v0)) •
              V3.cross (angular_momentum r0 v0) (eccentricity_vector r0 v0 mu) := by
    rw [s2, z3, z4]
    have := C90_periapsis hmu hh hell hf2 hm h2 hR
    have e0 : (intV 0 T fun t => eccentricityRate mu (fun _ => ⟨0, 0, 0⟩) (exactProp r0 v0 mu t)) = ⟨0, 0, 0⟩ := by
      simp [intV, eccentricityRate, V3.cross]
    rw [e0]
    change intV 0 T (fun t => eccentricityRate mu (accOf j2_acc args) (exactProp r0 v0 mu t)) = _ at this
    rw [this]
    ext <;> simp only [add_x, add_y, add_z, smul_x, smul_y, smul_z, add_zero, k, c] <;> ring
  have e3 : (∫ t in (0 : ℝ)..T, powerOf (zonalTerms args) (exactProp r0 v0 mu t)) = 0 := by
    rw [s3, z3, z4]
    have := C90_energy hmu hh hell hm hR (.inl ⟨h2, hf2⟩)
    change (∫ t in (0 : ℝ)..T, powerOf (accOf j2_acc args) (exactProp r0 v0 mu t)) = 0 at this
    rw [this]
    simp [powerOf, V3.dot]
  exact ⟨e1, e2, e3⟩

/-- C91: over the period of the starting orbit, with `J2` alone: the angular momentum has turned about the axis of the planet by
`-3π J2 (R/p)² cos i`, the eccentricity vector with it and by `3/2 π J2 (R/p)² (5 cos² i - 1)` in the plane, and the energy, so the semimajor
axis, is the same, all up to the square of the coefficient. -/
theorem C91_oblate {r0 v0 : V3 ℝ} {mu : ℝ} (R : ℝ) (hmu : 0 < mu) (hh : angular_momentum r0 v0 ≠ ⟨0, 0, 0⟩)
    (hell : V3.norm (eccentricity_vector r0 v0 mu) < 1) :
    let T := orb_period (semimajor_axis (V3.norm r0) (V3.norm v0) mu) mu
    let k := Real.pi * (R / semiparameter (V3.norm (angular_momentum r0 v0)) mu) ^ 2
    let c := Real.cos (inclination (angular_momentum r0 v0))
    ∃ C ε0, 0 ≤ C ∧ 0 < ε0 ∧ ∀ ε, 0 < ε → ε ≤ ε0 → ∀ (args : Args ℝ) (J : ℝ), args "mu" = some mu → args "R_eq" = some R →
      args "J2" = some J → args "J3" = some 0 → args "J4" = some 0 → |J| ≤ ε →
      (∃ r v : ℝ → V3 ℝ, r 0 = r0 ∧ v 0 = v0 ∧ Motion zonalForce args (Set.Icc 0 T) r v) ∧
      ∀ r v : ℝ → V3 ℝ, r 0 = r0 → v 0 = v0 → Motion zonalForce args (Set.Icc 0 T) r v →
        V3.norm (angular_momentum (r T) (v T) - angular_momentum r0 v0
          - (-(3 * k * J * c)) • V3.cross ⟨0, 0, 1⟩ (angular_momentum r0 v0)) ≤ C * ε ^ 2 ∧
        V3.norm (eccentricity_vector (r T) (v T) mu - eccentricity_vector r0 v0 mu
          - ((-(3 * k * J * c)) • V3.cross ⟨0, 0, 1⟩ (eccentricity_vector r0 v0 mu)
            + (3 / 2 * k * J * (5 * c ^ 2 - 1) / V3.norm (angular_momentum r0 v0)) •
              V3.cross (angular_momentum r0 v0) (eccentricity_vector r0 v0 mu))) ≤ C * ε ^ 2 ∧
        |keplerEnergy mu (r T, v T) - keplerEnergy mu (r0, v0)| ≤ C * ε ^ 2 := by
  intro T k c
  have hT : 0 ≤ T := by
    simp only [T, orb_period, sqrt_real, pi_real]; positivity
  obtain ⟨C, ε0, hC, hε0, h⟩ := C91_first_order R hmu hh hT
  refine ⟨C, ε0, hC, hε0, fun ε hε hle args J hm hR h2 h3 h4 hJ => ?_⟩
  have hz : |(0 : ℝ)| ≤ ε := by rw [abs_zero]; exact hε.le
  obtain ⟨hex, hall⟩ := h ε hε hle args J 0 0 hm hR h2 h3 h4 hJ hz hz
  refine ⟨hex, fun r v er ev hmot => ?_⟩
  obtain ⟨-, f1, f2, f3⟩ := hall r v er ev hmot
  obtain ⟨e1, e2, e3⟩ := oblate_rates hmu hh hell hm hR h2 h3 h4
  rw [e1] at f1
  rw [e2] at f2
  rw [e3, sub_zero] at f3
  exact ⟨f1, f2, f3⟩

/-- C91: over one period, with all three terms: angular momentum, eccentricity vector and energy from the elements, up to the square of
the coefficients. -/
theorem C91_zonal {p e mu : ℝ} (R : ℝ) (hp : 0 < p) (h0 : 0 ≤ e) (h1 : e < 1) (hmu : 0 < mu) (i Ω ω f0 : ℝ) :
    let s := coe2rv p e i Ω ω f0 mu
    let T := orb_period (p / (1 - e ^ 2)) mu
    let k := e * Real.cos ω
    let l := e * Real.sin ω
    ∃ C ε0, 0 ≤ C ∧ 0 < ε0 ∧ ∀ ε, 0 < ε → ε ≤ ε0 → ∀ (args : Args ℝ) (J2 J3 J4 : ℝ), args "mu" = some mu → args "R_eq" = some R →
      args "J2" = some J2 → args "J3" = some J3 → args "J4" = some J4 → |J2| ≤ ε → |J3| ≤ ε → |J4| ≤ ε →
      (∃ r v : ℝ → V3 ℝ, r 0 = s.1 ∧ v 0 = s.2 ∧ Motion zonalForce args (Set.Icc 0 T) r v) ∧
      ∀ r v : ℝ → V3 ℝ, r 0 = s.1 → v 0 = s.2 → Motion zonalForce args (Set.Icc 0 T) r v →
        V3.norm (angular_momentum (r T) (v T) - angular_momentum s.1 s.2
          - ((-(3 * Real.pi * J2 * (R / p) ^ 2 * Real.cos i)) • V3.cross ⟨0, 0, 1⟩ (Real.sqrt (mu * p) • poleDir i Ω)
            + (Real.pi * J3 * (R / p) ^ 3 * Real.sqrt (mu * p)) • (((-15/4) * k * Real.sin i ^ 2 + (3) * k) • (⟨Real.sin Ω, -Real.cos Ω, 0⟩ : V3 ℝ)
              + (((-45/4) * l * Real.sin i ^ 2 + (3) * l) * Real.cos i) • nodeDir Ω)
            + (Real.pi * J4 * (R / p) ^ 4 * Real.sqrt (mu * p)) • (((45/4) * k * l * Real.sin i + (-105/8) * k * l * Real.sin i ^ 3) • (⟨Real.sin Ω, -Real.cos Ω, 0⟩ : V3 ℝ)
              + (((45/8) * k ^ 2 * Real.sin i + (15/2) * Real.sin i + (135/8) * l ^ 2 * Real.sin i + (-105/8) * Real.sin i ^ 3 + (-105/16) * k ^ 2 * Real.sin i ^ 3 + (-525/16) * l ^ 2 * Real.sin i ^ 3) * Real.cos i) • nodeDir Ω))) ≤ C * ε ^ 2 ∧
        V3.norm (eccentricity_vector (r T) (v T) mu - eccentricity_vector s.1 s.2 mu
          - ((-(3 * Real.pi * J2 * (R / p) ^ 2 * Real.cos i)) • V3.cross ⟨0, 0, 1⟩ (e • inPlane i Ω ω)
              + (3 / 2 * Real.pi * J2 * (R / p) ^ 2 * (5 * Real.cos i ^ 2 - 1)) • V3.cross (poleDir i Ω) (e • inPlane i Ω ω)
            + (Real.pi * J3 * (R / p) ^ 3) • (((3) * k ^ 2 * Real.sin i + (-15/4) * k ^ 2 * Real.sin i ^ 3 + (15/4) * Real.sin i ^ 3 + (-12) * l ^ 2 * Real.sin i + (-3) * Real.sin i + (15) * l ^ 2 * Real.sin i ^ 3) • nodeDir Ω
              + ((15) * k * l * Real.sin i + (-75/4) * k * l * Real.sin i ^ 3) • aheadDir i Ω
              + (((15/2) * k * l * Real.sin i ^ 2) * Real.cos i) • poleDir i Ω)
            + (Real.pi * J4 * (R / p) ^ 4) • (((45/8) * k ^ 2 * l + (-45/16) * k ^ 2 * l * Real.sin i ^ 2 + (-345/8) * l * Real.sin i ^ 2 + (15/2) * l + (45/8) * l ^ 3 + (-675/16) * l ^ 3 * Real.sin i ^ 2 + (315/8) * l * Real.sin i ^ 4 + (-315/64) * k ^ 2 * l * Real.sin i ^ 4 + (2625/64) * l ^ 3 * Real.sin i ^ 4) • nodeDir Ω
              + ((-45/8) * k ^ 3 + (-15/2) * k + (-45/8) * k * l ^ 2 + (255/8) * k * Real.sin i ^ 2 + (855/16) * k * l ^ 2 * Real.sin i ^ 2 + (225/16) * k ^ 3 * Real.sin i ^ 2 + (-105/4) * k * Real.sin i ^ 4 + (-3465/64) * k * l ^ 2 * Real.sin i ^ 4 + (-525/64) * k ^ 3 * Real.sin i ^ 4) • aheadDir i Ω
              + (((-45/8) * k ^ 3 * Real.sin i + (-45/8) * k * l ^ 2 * Real.sin i + (-15/2) * k * Real.sin i + (105/8) * k * Real.sin i ^ 3 + (105/16) * k ^ 3 * Real.sin i ^ 3 + (315/16) * k * l ^ 2 * Real.sin i ^ 3) * Real.cos i) • poleDir i Ω))) ≤ C * ε ^ 2 ∧
        |keplerEnergy mu (r T, v T) - keplerEnergy mu s| ≤ C * ε ^ 2 := by
  intro s T k l
  have hh := orbit_h hp h0 h1 hmu i Ω ω f0
  have hT : 0 ≤ T := by
    simp only [T, orb_period, sqrt_real, pi_real]; positivity
  obtain ⟨C, ε0, hC, hε0, h⟩ := C91_first_order R hmu hh hT
  refine ⟨C, ε0, hC, hε0, fun ε hε hle args J2 J3 J4 hm hR h2 h3 h4 b2 b3 b4 => ?_⟩
  obtain ⟨hex, hall⟩ := h ε hε hle args J2 J3 J4 hm hR h2 h3 h4 b2 b3 b4
  refine ⟨hex, fun r v er ev hmot => ?_⟩
  obtain ⟨-, f1, f2, f3⟩ := hall r v er ev hmot
  obtain ⟨s1, s2, s3⟩ := rates_split hm hR h2 h3 h4 hmu hh T
  have g2 := field_j2 hm hR h2 h3 h4
  have g3 := field_j3 hm hR h2 h3 h4
  have g4 := field_j4 hm hR h2 h3 h4
  have hell : V3.norm (eccentricity_vector s.1 s.2 mu) < 1 ∧ semimajor_axis (V3.norm s.1) (V3.norm s.2) mu = p / (1 - e ^ 2) := by
    have hf : 0 < 1 + e * Real.cos f0 := by nlinarith [Real.neg_one_le_cos f0]
    obtain ⟨-, m2, m3⟩ := C32_magnitudes hp hmu hf i Ω ω h0
    have hα := pOf_alpha hmu hh
    have hq : 0 < 1 - e ^ 2 := by nlinarith
    refine ⟨by rw [m3]; exact h1, ?_⟩
    rw [pOf, eOf, m2, m3] at hα
    have e1 : alphaOf s.1 s.2 mu = (1 - e ^ 2) / p := by rw [eq_div_iff hp.ne']; linarith
    have e2 : semimajor_axis (V3.norm s.1) (V3.norm s.2) mu = 1 / alphaOf s.1 s.2 mu := by
      simp only [alphaOf, one_div_one_div]
    rw [e2, e1, one_div_div]
  obtain ⟨hell, hsa⟩ := hell
  have p2 := C90_energy hmu hh hell hm hR (.inl ⟨h2, g2⟩)
  have p3 := C90_energy hmu hh hell hm hR (.inr (.inl ⟨h3, g3⟩))
  have p4 := C90_energy hmu hh hell hm hR (.inr (.inr ⟨h4, g4⟩))
  rw [hsa] at p2 p3 p4
  change (∫ t in (0 : ℝ)..T, powerOf (accOf j2_acc args) (exactProp s.1 s.2 mu t)) = 0 at p2
  change (∫ t in (0 : ℝ)..T, powerOf (accOf j3_acc args) (exactProp s.1 s.2 mu t)) = 0 at p3
  change (∫ t in (0 : ℝ)..T, powerOf (accOf j4_acc args) (exactProp s.1 s.2 mu t)) = 0 at p4
  have m2 : intV 0 T (fun t => momentumRate (accOf j2_acc args) (exactProp s.1 s.2 mu t)) = _ := torque_elements hp h0 h1 hmu i Ω ω f0 g2 hm h2 hR
  have m3 : intV 0 T (fun t => momentumRate (accOf j3_acc args) (exactProp s.1 s.2 mu t)) = _ := C90_j3_momentum hp h0 h1 hmu i Ω ω f0 hm hR g3 h3
  have m4 : intV 0 T (fun t => momentumRate (accOf j4_acc args) (exactProp s.1 s.2 mu t)) = _ := C90_j4_momentum hp h0 h1 hmu i Ω ω f0 hm hR g4 h4
  have c2 : intV 0 T (fun t => eccentricityRate mu (accOf j2_acc args) (exactProp s.1 s.2 mu t)) = _ := ecc_elements hp h0 h1 hmu i Ω ω f0 g2 hm h2 hR
  have c3 : intV 0 T (fun t => eccentricityRate mu (accOf j3_acc args) (exactProp s.1 s.2 mu t)) = _ := C90_j3_eccentricity hp h0 h1 hmu i Ω ω f0 hm hR g3 h3
  have c4 : intV 0 T (fun t => eccentricityRate mu (accOf j4_acc args) (exactProp s.1 s.2 mu t)) = _ := C90_j4_eccentricity hp h0 h1 hmu i Ω ω f0 hm hR g4 h4
  rw [s1, m2, m3, m4] at f1
  rw [s2, c2, c3, c4] at f2
  rw [s3, p2, p3, p4, add_zero, add_zero, sub_zero] at f3
  exact ⟨f1, f2, f3⟩

/-! ## The propagated state -/

/-- `h`, `e` and the energy of the state `y` are those of `s` with the first-order changes over the time `T`, up to `B`. -/
structure FirstOrderEnd (args : Args ℝ) (mu T B : ℝ) (s y : V3 ℝ × V3 ℝ) : Prop where
  /-- angular momentum -/
  momentum : V3.norm (angular_momentum y.1 y.2 - angular_momentum s.1 s.2
    - intV 0 T fun t => momentumRate (zonalTerms args) (exactProp s.1 s.2 mu t)) ≤ B
  /-- eccentricity vector -/
  eccentricity : V3.norm (eccentricity_vector y.1 y.2 mu - eccentricity_vector s.1 s.2 mu
    - intV 0 T fun t => eccentricityRate mu (zonalTerms args) (exactProp s.1 s.2 mu t)) ≤ B
  /-- energy -/
  energy : |keplerEnergy mu y - keplerEnergy mu s - ∫ t in (0 : ℝ)..T, powerOf (zonalTerms args) (exactProp s.1 s.2 mu t)| ≤ B

/-- Near a state away from the centre the three hold with little more. -/
theorem end_near {args : Args ℝ} {mu T B : ℝ} {s y : V3 ℝ × V3 ℝ} (h : FirstOrderEnd args mu T B s y) (hy : y.1 ≠ ⟨0, 0, 0⟩) {η : ℝ} (hη : 0 < η) :
    ∃ δ > 0, ∀ z, Near δ z y → FirstOrderEnd args mu T (B + η) s z := by
  have hn : ContinuousAt (fun e : Coord => V3.norm (ofP e.1)) (toE y) := by
    have e : (fun e : Coord => V3.norm (ofP e.1)) = fun e : Coord => Real.sqrt (e.1.1 * e.1.1 + e.1.2.1 * e.1.2.1 + e.1.2.2 * e.1.2.2) := rfl
    rw [e]; fun_prop
  have hy0 : V3.norm (ofP (toE y).1) ≠ 0 := ((norm_pos _).2 hy).ne'
  have hc : ∀ {f : Coord → V3 ℝ}, ContinuousAt (fun e => (f e).x) (toE y) → ContinuousAt (fun e => (f e).y) (toE y) →
      ContinuousAt (fun e => (f e).z) (toE y) → ContinuousAt (fun e => V3.norm (f e)) (toE y) := by
    intro f h1 h2 h3
    have e : (fun e => V3.norm (f e)) = fun e => Real.sqrt ((f e).x * (f e).x + (f e).y * (f e).y + (f e).z * (f e).z) := rfl
    rw [e]; fun_prop
  have c1 : ContinuousAt (fun e : Coord => V3.norm (angular_momentum (ofP e.1) (ofP e.2) - angular_momentum s.1 s.2
      - intV 0 T fun t => momentumRate (zonalTerms args) (exactProp s.1 s.2 mu t))) (toE y) := by
    apply hc <;> simp only [angular_momentum, V3.cross, sub_x, sub_y, sub_z, ofP] <;> fun_prop
  have c2 : ContinuousAt (fun e : Coord => V3.norm (eccentricity_vector (ofP e.1) (ofP e.2) mu - eccentricity_vector s.1 s.2 mu
      - intV 0 T fun t => eccentricityRate mu (zonalTerms args) (exactProp s.1 s.2 mu t))) (toE y) := by
    have hi : ContinuousAt (fun e : Coord => (V3.norm (ofP e.1))⁻¹) (toE y) := hn.inv₀ hy0
    apply hc <;> simp only [ecc_eq, one_div, V3.dot, sub_x, sub_y, sub_z, smul_x, smul_y, smul_z] at hi ⊢ <;> simp only [ofP] at hi ⊢ <;> fun_prop
  have c3 : ContinuousAt (fun e : Coord => |keplerEnergy mu (ofP e.1, ofP e.2) - keplerEnergy mu s
      - ∫ t in (0 : ℝ)..T, powerOf (zonalTerms args) (exactProp s.1 s.2 mu t)|) (toE y) := by
    have hi : ContinuousAt (fun e : Coord => mu / V3.norm (ofP e.1)) (toE y) := continuousAt_const.div hn hy0
    simp only [keplerEnergy, norm_sq, V3.dot]
    have hp : ContinuousAt (fun e : Coord => ((ofP e.2).x * (ofP e.2).x + (ofP e.2).y * (ofP e.2).y + (ofP e.2).z * (ofP e.2).z) / 2) (toE y) := by
      simp only [ofP]; fun_prop
    exact (((hp.sub hi).sub continuousAt_const).sub continuousAt_const).abs
  have hev := ((c1.eventually_lt continuousAt_const (lt_of_le_of_lt h.momentum (by linarith : B < B + η))).and
    (c2.eventually_lt continuousAt_const (lt_of_le_of_lt h.eccentricity (by linarith : B < B + η)))).and
    (c3.eventually_lt continuousAt_const (lt_of_le_of_lt h.energy (by linarith : B < B + η)))
  obtain ⟨δ, hδ, hball⟩ := Metric.eventually_nhds_iff_ball.1 hev
  refine ⟨δ / 2, by positivity, fun z hz => ?_⟩
  obtain ⟨⟨d1, d2⟩, d3⟩ := hball (toE z) (by rw [Metric.mem_ball, dist_eq_norm]; exact lt_of_le_of_lt (norm_of_near hz) (by linarith))
  exact ⟨d1.le, d2.le, d3.le⟩

/-- C91: so are those of the state `fixed_steps` returns for the time `T`, up to as little as wanted beyond, for short steps. -/
theorem C91_propagated {r0 v0 : V3 ℝ} {mu : ℝ} (R : ℝ) {T : ℝ} (hmu : 0 < mu) (hh : angular_momentum r0 v0 ≠ ⟨0, 0, 0⟩) (hT : 0 < T) :
    ∃ C ε0, 0 ≤ C ∧ 0 < ε0 ∧ ∀ ε, 0 < ε → ε ≤ ε0 → ∀ (o : OrbDynx ℝ (V3 ℝ × V3 ℝ)) (J2 J3 J4 : ℝ), o.terms = secondOrder zonalForce →
      o.event = none → o.args "mu" = some mu → o.args "R_eq" = some R → o.args "J2" = some J2 → o.args "J3" = some J3 →
      o.args "J4" = some J4 → |J2| ≤ ε → |J3| ≤ ε → |J4| ≤ ε → ∀ (tb : Tableau ℝ) (A : ℝ), 0 ≤ A → tb.rows ≠ [] → RowsOk A 1 tb.rows 1 →
      ∀ (interp : ℝ → ℝ → V3 ℝ × V3 ℝ → V3 ℝ × V3 ℝ → ℝ → V3 ℝ × V3 ℝ) (err : ℝ → ℝ → V3 ℝ × V3 ℝ → V3 ℝ × V3 ℝ → V3 ℝ × V3 ℝ) (η : ℝ),
      0 < η → ∃ δ > 0, ∀ dt ctol : ℝ, 0 < dt → 0 ≤ ctol → dt + ctol ≤ δ → ∀ m : ℕ, T ≤ m * dt →
        ∃ s y, fixed_steps ctol o (r0, v0) T dt (rkSolver tb interp err) (some m) = some (.ok s) ∧
          s.saved.getLast? = some (T, y) ∧ FirstOrderEnd o.args mu T (C * ε ^ 2 + η) (r0, v0) y := by
  obtain ⟨C, ε0, hC, hε0, h⟩ := C91_first_order R hmu hh hT.le
  refine ⟨C, ε0, hC, hε0, fun ε hε hle o J2 J3 J4 ho he hm hR h2 h3 h4 b2 b3 b4 tb A hA hne hRows interp err η hη => ?_⟩
  obtain ⟨⟨r, v, er, ev, hmot⟩, hall⟩ := h ε hε hle o.args J2 J3 J4 hm hR h2 h3 h4 b2 b3 b4
  obtain ⟨-, f1, f2, f3⟩ := hall r v er ev hmot
  have hend : FirstOrderEnd o.args mu T (C * ε ^ 2) (r0, v0) (r T, v T) := ⟨f1, f2, f3⟩
  obtain ⟨δ, hδ, hnear⟩ := end_near hend (hmot.avoid T ⟨hT.le, le_rfl⟩) hη
  have hZ := smooth_zonal hm h2 h4 hR h3
  obtain ⟨C', h0, hC', hh0, hcl⟩ := C73_force hZ hT hmot.avoid hmot.pos hmot.vel hA
  refine ⟨min h0 (δ / (C' + 1)), by positivity, fun dt ctol hdt hc hle m hmT => ?_⟩
  have hle1 : dt + ctol + |(1 : ℝ) - 1| + 0 ≤ h0 := by simpa using hle.trans (min_le_left _ _)
  have hk : ∃ k, secondOrder zonalForce 0 (r 0, v 0) o.args = .ok k := by
    simp only [secondOrder, hZ.ok]; exact ⟨_, rfl⟩
  obtain ⟨k, hk⟩ := hk
  obtain ⟨s, y, g1, g2, g3⟩ := C73_reaches hcl hT ho rfl he hk hne hRows hc (near_self _) hdt hle1 hmT interp err
  rw [er, ev] at g1
  refine ⟨s, y, g1, g2, hnear y ?_⟩
  have hle2 : dt + ctol ≤ δ / (C' + 1) := hle.trans (min_le_right _ _)
  rw [le_div_iff₀ (by positivity)] at hle2
  have hb : C' * (dt + ctol + |(1 : ℝ) - 1| + 0) ≤ δ := by
    rw [sub_self, abs_zero, add_zero, add_zero]; nlinarith
  obtain ⟨a1, a2, a3, a4, a5, a6⟩ := g3
  exact ⟨a1.trans hb, a2.trans hb, a3.trans hb, a4.trans hb, a5.trans hb, a6.trans hb⟩

/-- C91: a run of `fixed_steps` with `J2` over one period shows the regression of the node, the motion of the periapsis and the constant
semimajor axis. -/
theorem C91_oblate_propagated {r0 v0 : V3 ℝ} {mu : ℝ} (R : ℝ) (hmu : 0 < mu) (hh : angular_momentum r0 v0 ≠ ⟨0, 0, 0⟩)
    (hell : V3.norm (eccentricity_vector r0 v0 mu) < 1) :
    let T := orb_period (semimajor_axis (V3.norm r0) (V3.norm v0) mu) mu
    let k := Real.pi * (R / semiparameter (V3.norm (angular_momentum r0 v0)) mu) ^ 2
    let c := Real.cos (inclination (angular_momentum r0 v0))
    ∃ C ε0, 0 ≤ C ∧ 0 < ε0 ∧ ∀ ε, 0 < ε → ε ≤ ε0 → ∀ (o : OrbDynx ℝ (V3 ℝ × V3 ℝ)) (J : ℝ), o.terms = secondOrder zonalForce →
      o.event = none → o.args "mu" = some mu → o.args "R_eq" = some R → o.args "J2" = some J → o.args "J3" = some 0 →
      o.args "J4" = some 0 → |J| ≤ ε → ∀ (tb : Tableau ℝ) (A : ℝ), 0 ≤ A → tb.rows ≠ [] → RowsOk A 1 tb.rows 1 →
      ∀ (interp : ℝ → ℝ → V3 ℝ × V3 ℝ → V3 ℝ × V3 ℝ → ℝ → V3 ℝ × V3 ℝ) (err : ℝ → ℝ → V3 ℝ × V3 ℝ → V3 ℝ × V3 ℝ → V3 ℝ × V3 ℝ) (η : ℝ),
      0 < η → ∃ δ > 0, ∀ dt ctol : ℝ, 0 < dt → 0 ≤ ctol → dt + ctol ≤ δ → ∀ m : ℕ, T ≤ m * dt →
        ∃ s y, fixed_steps ctol o (r0, v0) T dt (rkSolver tb interp err) (some m) = some (.ok s) ∧ s.saved.getLast? = some (T, y) ∧
          V3.norm (angular_momentum y.1 y.2 - angular_momentum r0 v0
            - (-(3 * k * J * c)) • V3.cross ⟨0, 0, 1⟩ (angular_momentum r0 v0)) ≤ C * ε ^ 2 + η ∧
          V3.norm (eccentricity_vector y.1 y.2 mu - eccentricity_vector r0 v0 mu
            - ((-(3 * k * J * c)) • V3.cross ⟨0, 0, 1⟩ (eccentricity_vector r0 v0 mu)
              + (3 / 2 * k * J * (5 * c ^ 2 - 1) / V3.norm (angular_momentum r0 v0)) •
                V3.cross (angular_momentum r0 v0) (eccentricity_vector r0 v0 mu))) ≤ C * ε ^ 2 + η ∧
          |keplerEnergy mu y - keplerEnergy mu (r0, v0)| ≤ C * ε ^ 2 + η := by
  intro T k c
  have hT : 0 < T := by
    obtain ⟨p, e, -, -, -, -, hp, he, h1, -, -, -, -, -, ea⟩ := elliptic_elements hmu hh hell
    have hq : 0 < 1 - e ^ 2 := by nlinarith
    have := div_pos hp hq
    simp only [T, ea, orb_period, sqrt_real, pi_real, Nat.cast_ofNat]
    have := Real.pi_pos
    positivity
  obtain ⟨C, ε0, hC, hε0, h⟩ := C91_propagated R hmu hh hT
  refine ⟨C, ε0, hC, hε0, fun ε hε hle o J ho he hm hR h2 h3 h4 hJ tb A hA hne hRows interp err η hη => ?_⟩
  have hz : |(0 : ℝ)| ≤ ε := by rw [abs_zero]; exact hε.le
  obtain ⟨δ, hδ, hrun⟩ := h ε hε hle o J 0 0 ho he hm hR h2 h3 h4 hJ hz hz tb A hA hne hRows interp err η hη
  refine ⟨δ, hδ, fun dt ctol hdt hc hle m hm' => ?_⟩
  obtain ⟨s, y, g1, g2, f1, f2, f3⟩ := hrun dt ctol hdt hc hle m hm'
  obtain ⟨e1, e2, e3⟩ := oblate_rates hmu hh hell hm hR h2 h3 h4
  rw [e1] at f1
  rw [e2] at f2
  rw [e3, sub_zero] at f3
  exact ⟨s, y, g1, g2, f1, f2, f3⟩

/-! ## Over several revolutions -/

theorem intV_periodic {F : ℝ → V3 ℝ} {T : ℝ} (hF : ContV F) (hp : ∀ t, F (t + T) = F t) (n : ℕ) :
    intV 0 (n * T) F = (n : ℝ) • intV 0 T F := by
  have key : ∀ {f : ℝ → ℝ}, Continuous f → (∀ t, f (t + T) = f t) → ∫ t in (0 : ℝ)..n * T, f t = n * ∫ t in (0 : ℝ)..T, f t := by
    intro f hf hper
    have := Function.Periodic.intervalIntegral_add_zsmul_eq (f := f) (T := T) hper (n : ℤ) 0 (fun a b => hf.intervalIntegrable a b)
    simpa [zero_add, zsmul_eq_mul] using this
  ext <;> simp only [intV, smul_x, smul_y, smul_z]
  · exact key hF.x fun t => by rw [hp]
  · exact key hF.y fun t => by rw [hp]
  · exact key hF.z fun t => by rw [hp]

/-- The Kepler motion of an elliptic state has the period the library computes. -/
theorem kepler_periodic {r0 v0 : V3 ℝ} {mu : ℝ} (hmu : 0 < mu) (hh : angular_momentum r0 v0 ≠ ⟨0, 0, 0⟩)
    (hell : V3.norm (eccentricity_vector r0 v0 mu) < 1) (t : ℝ) :
    exactProp r0 v0 mu (t + orb_period (semimajor_axis (V3.norm r0) (V3.norm v0) mu) mu) = exactProp r0 v0 mu t := by
  obtain ⟨p, e, i, Ω, ω, f, hp, he, h1, hc, -, -, -, -, ea⟩ := elliptic_elements hmu hh hell
  have hcl := period_closes hp he h1 hmu i Ω ω f
  rw [hc, ← ea] at hcl
  simp only at hcl
  obtain ⟨hz, hk⟩ := C21_solves_two_body hmu hh
  have hm0 : unitArgs mu 0 "mu" = some mu := rfl
  have hmot : Motion point_mass_grav (unitArgs mu 0) Set.univ (fun t => (exactProp r0 v0 mu t).1) (fun t => (exactProp r0 v0 mu t).2) :=
    ⟨fun s _ => (hk s trivial).1, fun s _ => (hk s trivial).2.1, fun s _ => by
      obtain ⟨a, e1, e2⟩ := C21_acceleration_is_point_mass_grav hmu hh s [] _ hm0
      exact ⟨a, [], e1, e2⟩⟩
  obtain ⟨e1, e2⟩ := C89_periodic (smooth_point_mass hm0) hmot (t0 := 0)
    (T := orb_period (semimajor_axis (V3.norm r0) (V3.norm v0) mu) mu) (by rw [zero_add, hcl, hz]) (by rw [zero_add, hcl, hz]) t
  exact Prod.ext e1 e2

/-- C91: over `n` revolutions the changes under `J2` are `n` times those of one, up to the square of the coefficient (with a factor that depends
on `n`). -/
theorem C91_revolutions {r0 v0 : V3 ℝ} {mu : ℝ} (R : ℝ) (n : ℕ) (hmu : 0 < mu) (hh : angular_momentum r0 v0 ≠ ⟨0, 0, 0⟩)
    (hell : V3.norm (eccentricity_vector r0 v0 mu) < 1) :
    let T := n * orb_period (semimajor_axis (V3.norm r0) (V3.norm v0) mu) mu
    let k := Real.pi * (R / semiparameter (V3.norm (angular_momentum r0 v0)) mu) ^ 2
    let c := Real.cos (inclination (angular_momentum r0 v0))
    ∃ C ε0, 0 ≤ C ∧ 0 < ε0 ∧ ∀ ε, 0 < ε → ε ≤ ε0 → ∀ (args : Args ℝ) (J : ℝ), args "mu" = some mu → args "R_eq" = some R →
      args "J2" = some J → args "J3" = some 0 → args "J4" = some 0 → |J| ≤ ε →
      (∃ r v : ℝ → V3 ℝ, r 0 = r0 ∧ v 0 = v0 ∧ Motion zonalForce args (Set.Icc 0 T) r v) ∧
      ∀ r v : ℝ → V3 ℝ, r 0 = r0 → v 0 = v0 → Motion zonalForce args (Set.Icc 0 T) r v →
        V3.norm (angular_momentum (r T) (v T) - angular_momentum r0 v0
          - (n : ℝ) • (-(3 * k * J * c)) • V3.cross ⟨0, 0, 1⟩ (angular_momentum r0 v0)) ≤ C * ε ^ 2 ∧
        V3.norm (eccentricity_vector (r T) (v T) mu - eccentricity_vector r0 v0 mu
          - (n : ℝ) • ((-(3 * k * J * c)) • V3.cross ⟨0, 0, 1⟩ (eccentricity_vector r0 v0 mu)
            + (3 / 2 * k * J * (5 * c ^ 2 - 1) / V3.norm (angular_momentum r0 v0)) •
              V3.cross (angular_momentum r0 v0) (eccentricity_vector r0 v0 mu))) ≤ C * ε ^ 2 ∧
        |keplerEnergy mu (r T, v T) - keplerEnergy mu (r0, v0)| ≤ C * ε ^ 2 := by
  intro T k c
  have hT : 0 ≤ T := by
    simp only [T, orb_period, sqrt_real, pi_real]; positivity
  obtain ⟨C, ε0, hC, hε0, h⟩ := C91_first_order R hmu hh hT
  refine ⟨C, ε0, hC, hε0, fun ε hε hle args J hm hR h2 h3 h4 hJ => ?_⟩
  have hz : |(0 : ℝ)| ≤ ε := by rw [abs_zero]; exact hε.le
  obtain ⟨hex, hall⟩ := h ε hε hle args J 0 0 hm hR h2 h3 h4 hJ hz hz
  refine ⟨hex, fun r v er ev hmot => ?_⟩
  obtain ⟨-, f1, f2, f3⟩ := hall r v er ev hmot
  obtain ⟨e1, e2, e3⟩ := oblate_rates hmu hh hell hm hR h2 h3 h4
  have hper := kepler_periodic hmu hh hell
  have hk := (C21_solves_two_body hmu hh).2
  have cq : ContV fun t => (exactProp r0 v0 mu t).1 := .of_deriv fun t => (hk t trivial).2.1
  have cv : ContV fun t => (exactProp r0 v0 mu t).2 := .of_deriv fun t => (hk t trivial).2.2
  have c2 := cq.zonal hm hR (.inl ⟨h2, field_j2 hm hR h2 h3 h4⟩) fun t => (hk t trivial).1
  have c3 := cq.zonal hm hR (.inr (.inl ⟨h3, field_j3 hm hR h2 h3 h4⟩)) fun t => (hk t trivial).1
  have c4 := cq.zonal hm hR (.inr (.inr ⟨h4, field_j4 hm hR h2 h3 h4⟩)) fun t => (hk t trivial).1
  have cz : ContV fun t => zonalTerms args (exactProp r0 v0 mu t).1 := (c2.add c3).add c4
  have cp : Continuous fun t => powerOf (zonalTerms args) (exactProp r0 v0 mu t) := ((cz.x.mul cv.x).add (cz.y.mul cv.y)).add (cz.z.mul cv.z)
  have p1 : intV 0 T (fun t => momentumRate (zonalTerms args) (exactProp r0 v0 mu t)) = _ :=
    intV_periodic (F := fun t => momentumRate (zonalTerms args) (exactProp r0 v0 mu t)) (cq.cross cz) (fun t => by simp only [hper]) n
  have p2 : intV 0 T (fun t => eccentricityRate mu (zonalTerms args) (exactProp r0 v0 mu t)) = _ :=
    intV_periodic (F := fun t => eccentricityRate mu (zonalTerms args) (exactProp r0 v0 mu t))
      (.smul continuous_const ((cz.cross (cq.cross cv)).add (cv.cross (cq.cross cz)))) (fun t => by simp only [hper]) n
  have p3 : (∫ t in (0 : ℝ)..T, powerOf (zonalTerms args) (exactProp r0 v0 mu t)) = 0 := by
    have := Function.Periodic.intervalIntegral_add_zsmul_eq (f := fun t => powerOf (zonalTerms args) (exactProp r0 v0 mu t))
      (T := orb_period (semimajor_axis (V3.norm r0) (V3.norm v0) mu) mu) (fun t => by simp only [hper]) (n : ℤ) 0
      (fun a b => cp.intervalIntegrable a b)
    rw [zero_add, zero_add] at this
    simp only [zsmul_eq_mul, Int.cast_natCast] at this
    rw [this, e3, mul_zero]
  rw [p1, e1] at f1
  rw [p2, e2] at f2
  rw [p3, sub_zero] at f3
  exact ⟨f1, f2, f3⟩

/-- Non-vacuity: a circular orbit, an elliptic one, and arguments as asked for. -/
example : angular_momentum (⟨1, 0, 0⟩ : V3 ℝ) ⟨0, 1, 0⟩ ≠ ⟨0, 0, 0⟩ ∧ V3.norm (eccentricity_vector (⟨1, 0, 0⟩ : V3 ℝ) ⟨0, 1, 0⟩ 1) < 1 ∧
    (0 : ℝ) < 1 / 2 ∧ (1 / 2 : ℝ) < 1 ∧ ∀ J2 J3 J4 : ℝ, ∃ args : Args ℝ, args "mu" = some 1 ∧ args "R_eq" = some 1 ∧ args "J2" = some J2 ∧
      args "J3" = some J3 ∧ args "J4" = some J4 ∧ heun.rows ≠ [] ∧ RowsOk 1 1 heun.rows 1 := by
  refine ⟨fun h => ?_, ?_, by norm_num, by norm_num, fun J2 J3 J4 => ⟨fun k => if k = "J2" then some J2 else if k = "J3" then some J3 else
    if k = "J4" then some J4 else some 1, rfl, rfl, rfl, rfl, rfl, by simp [heun], heun_ok⟩⟩
  · have := congrArg V3.z h
    norm_num [angular_momentum, V3.cross] at this
  · have : eccentricity_vector (⟨1, 0, 0⟩ : V3 ℝ) ⟨0, 1, 0⟩ 1 = ⟨0, 0, 0⟩ := by
      ext <;> norm_num [eccentricity_vector, angular_momentum, V3.norm, V3.dot, V3.cross]
    rw [this]
    norm_num [V3.norm, V3.dot]

end Adx
