import Verif.Props.C21

/-! # Exact propagation without the assumption of nonzero angular momentum

The radius may vanish at isolated anomalies; the universal Kepler equation still has exactly one root. -/

namespace Adx
open Spec V3 Filter Topology

section addition
variable (α r0 σ0 : ℝ)

theorem radU_add (χ ψ : ℝ) : radU α r0 σ0 (χ + ψ) = radU α (radU α r0 σ0 χ) (sigU α r0 σ0 χ) ψ := by
  obtain ⟨h0, h1⟩ := U_add χ ψ α
  have h2 := U2_add χ ψ α
  have e1 := U0_eq χ α
  have e2 := U0_eq ψ α
  simp only [radU, sigU, h0, h1, h2]
  linear_combination U 2 ψ α * e1 - U 2 χ α * e2

theorem sigU_add (χ ψ : ℝ) : sigU α r0 σ0 (χ + ψ) = sigU α (radU α r0 σ0 χ) (sigU α r0 σ0 χ) ψ := by
  obtain ⟨h0, h1⟩ := U_add χ ψ α
  have e1 := U0_eq χ α
  simp only [radU, sigU, h0, h1]
  linear_combination U 1 ψ α * e1

theorem kepU_add (χ ψ : ℝ) :
    kepU α r0 σ0 (χ + ψ) = kepU α r0 σ0 χ + kepU α (radU α r0 σ0 χ) (sigU α r0 σ0 χ) ψ := by
  obtain ⟨h0, h1⟩ := U_add χ ψ α
  have h2 := U2_add χ ψ α
  have h3 := U3_add χ ψ α
  have e2 := U0_eq ψ α
  simp only [kepU, radU, sigU, h1, h2, h3]
  linear_combination r0 * U 1 χ α * e2

theorem kepU_neg (χ : ℝ) : kepU α r0 σ0 (-χ) = -kepU α r0 (-σ0) χ := by
  simp only [kepU, U_neg_left]; ring

theorem radU_neg (χ : ℝ) : radU α r0 σ0 (-χ) = radU α r0 (-σ0) χ := by
  simp only [radU, U_neg_left]; ring

theorem sigU_eq (χ : ℝ) : sigU α r0 σ0 χ = σ0 + χ - α * kepU α r0 σ0 χ := by
  have e0 := U0_eq χ α
  have e1 := U1_eq χ α
  simp only [sigU, kepU]
  linear_combination σ0 * e0 + e1

variable {α r0 σ0}

/-- If the radius is never negative, its integral is strictly increasing. -/
theorem strictMono_kepU' (h : ∀ χ, 0 ≤ radU α r0 σ0 χ) : StrictMono (kepU α r0 σ0) := by
  have hd := hasDerivAt_kepU α r0 σ0
  have hm : Monotone (kepU α r0 σ0) := monotone_of_deriv_nonneg (fun χ => (hd χ).differentiableAt)
    (fun χ => by rw [(hd χ).deriv]; exact h χ)
  refine hm.strictMono_of_injective fun a b hab => ?_
  by_contra hne
  wlog hlt : a < b generalizing a b
  · exact this b a hab.symm (Ne.symm hne) (lt_of_le_of_ne (not_lt.1 hlt) (Ne.symm hne))
  have hconst : ∀ x ∈ Set.Ioo a b, kepU α r0 σ0 x = kepU α r0 σ0 a := fun x hx =>
    le_antisymm ((hm hx.2.le).trans hab.ge) (hm hx.1.le)
  have hrad : ∀ x ∈ Set.Ioo a b, radU α r0 σ0 x = 0 := fun x hx => by
    refine (hd x).unique ((hasDerivAt_const x (kepU α r0 σ0 a)).congr_of_eventuallyEq ?_)
    filter_upwards [isOpen_Ioo.mem_nhds hx] with y hy using hconst y hy
  have hsig : ∀ x ∈ Set.Ioo a b, sigU α r0 σ0 x = 0 := fun x hx => by
    refine (hasDerivAt_radU α r0 σ0 x).unique ((hasDerivAt_const x (0 : ℝ)).congr_of_eventuallyEq ?_)
    filter_upwards [isOpen_Ioo.mem_nhds hx] with y hy using hrad y hy
  obtain ⟨x, hx⟩ := exists_between hlt
  have : 1 - α * radU α r0 σ0 x = 0 := by
    refine (hasDerivAt_sigU α r0 σ0 x).unique ((hasDerivAt_const x (0 : ℝ)).congr_of_eventuallyEq ?_)
    filter_upwards [isOpen_Ioo.mem_nhds hx] with y hy using hsig y hy
  rw [hrad x hx] at this
  norm_num at this

theorem kepU_unbounded (h : ∀ χ, 0 ≤ radU α r0 σ0 χ) (y : ℝ) : ∃ χ, y ≤ kepU α r0 σ0 χ := by
  by_contra hno
  push Not at hno
  have hm := (strictMono_kepU' h).monotone
  have hy : 0 < y := by have := hno 0; rwa [kepU_zero] at this
  have hpos : ∀ χ, 0 ≤ χ → 0 ≤ kepU α r0 σ0 χ := fun χ hχ => by
    have := hm hχ; rwa [kepU_zero] at this
  -- from `X` on the radius grows at least linearly
  set X := |σ0| + |α| * y + 1 with hX
  have hX0 : 0 ≤ X := by positivity
  have hs : ∀ χ, X ≤ χ → 1 ≤ sigU α r0 σ0 χ := by
    intro χ hχ
    rw [sigU_eq]
    have a1 : α * kepU α r0 σ0 χ ≤ |α| * y := by
      refine (le_abs_self _).trans ?_
      rw [abs_mul, abs_of_nonneg (hpos χ (hX0.trans hχ))]
      exact mul_le_mul_of_nonneg_left (hno χ).le (abs_nonneg _)
    have a2 := neg_abs_le σ0
    linarith
  have hr : ∀ χ, X ≤ χ → χ - X ≤ radU α r0 σ0 χ := by
    intro χ hχ
    have := (convex_Ici X).image_sub_le_mul_sub_of_deriv_le (f := fun x => x - radU α r0 σ0 x) (C := 0)
      (fun x _ => ((hasDerivAt_id' x).fun_sub (hasDerivAt_radU α r0 σ0 x)).continuousAt.continuousWithinAt)
      (fun x _ => ((hasDerivAt_id' x).fun_sub (hasDerivAt_radU α r0 σ0 x)).differentiableAt.differentiableWithinAt)
      (fun x hx => by
        rw [interior_Ici] at hx
        rw [((hasDerivAt_id' x).fun_sub (hasDerivAt_radU α r0 σ0 x)).deriv]
        linarith [hs x (le_of_lt hx)]) X Set.self_mem_Ici χ hχ hχ
    have := h X
    linarith
  have hk : y + 2 - 1 ≤ kepU α r0 σ0 (X + (y + 2)) := by
    have := (convex_Ici (X + 1)).mul_sub_le_image_sub_of_le_deriv (f := kepU α r0 σ0) (C := 1)
      (fun x _ => (hasDerivAt_kepU α r0 σ0 x).continuousAt.continuousWithinAt)
      (fun x _ => (hasDerivAt_kepU α r0 σ0 x).differentiableAt.differentiableWithinAt)
      (fun x hx => by
        rw [interior_Ici] at hx
        rw [(hasDerivAt_kepU α r0 σ0 x).deriv]
        have := hr x (by linarith [Set.mem_Ioi.1 hx])
        linarith [Set.mem_Ioi.1 hx]) (X + 1) Set.self_mem_Ici (X + (y + 2)) (by simp; linarith) (by linarith)
    have := hpos (X + 1) (by linarith)
    linarith
  linarith [hno (X + (y + 2))]

theorem kepU_bijective (h : ∀ χ, 0 ≤ radU α r0 σ0 χ) : Function.Bijective (kepU α r0 σ0) := by
  refine ⟨(strictMono_kepU' h).injective, fun y => ?_⟩
  have hc : Continuous (kepU α r0 σ0) := continuous_iff_continuousAt.2 fun x => (hasDerivAt_kepU α r0 σ0 x).continuousAt
  obtain ⟨a, ha⟩ := kepU_unbounded h y
  obtain ⟨b, hb⟩ := kepU_unbounded (σ0 := -σ0) (fun χ => by rw [← radU_neg]; exact h _) (-y)
  exact mem_range_of_exists_le_of_exists_ge hc ⟨-b, by rw [kepU_neg]; linarith⟩ ⟨a, ha⟩

end addition

section lag
variable {α r0 σ0 mu χ ψ : ℝ} (h0 : r0 ≠ 0) (hmu : 0 < mu) (hR : radU α r0 σ0 χ ≠ 0)

theorem rad_key1 : radU α r0 σ0 χ * U 0 χ α - sigU α r0 σ0 χ * U 1 χ α = r0 - U 2 χ α := by
  have e0 := U0_eq χ α
  have e1 := U1_sq χ α
  simp only [radU, sigU, e0]
  linear_combination (-(1 - α * r0)) * e1

theorem rad_key2 : radU α r0 σ0 χ * U 1 χ α - sigU α r0 σ0 χ * U 2 χ α = r0 * U 1 χ α + σ0 * U 2 χ α := by
  have e0 := U0_eq χ α
  have e1 := U1_sq χ α
  simp only [radU, sigU, e0]
  linear_combination σ0 * e1

include h0 hmu hR

theorem cF_add : cF (radU α r0 σ0 χ) ψ α * cF r0 χ α + cG α (radU α r0 σ0 χ) (sigU α r0 σ0 χ) mu ψ * cFt α r0 σ0 mu χ
    = cF r0 (χ + ψ) α := by
  have hs : Real.sqrt mu ≠ 0 := (Real.sqrt_pos.2 hmu).ne'
  have k1 := rad_key1 (α := α) (r0 := r0) (σ0 := σ0) (χ := χ)
  simp only [cF, cG, cFt, U2_add]
  generalize radU α r0 σ0 χ = R at *
  field_simp
  linear_combination (U 2 ψ α) * k1

omit h0 in
theorem cG_add : cF (radU α r0 σ0 χ) ψ α * cG α r0 σ0 mu χ + cG α (radU α r0 σ0 χ) (sigU α r0 σ0 χ) mu ψ * cGt α r0 σ0 χ
    = cG α r0 σ0 mu (χ + ψ) := by
  have hs : Real.sqrt mu ≠ 0 := (Real.sqrt_pos.2 hmu).ne'
  have k2 := rad_key2 (α := α) (r0 := r0) (σ0 := σ0) (χ := χ)
  have hRd : radU α r0 σ0 χ = r0 * U 0 χ α + σ0 * U 1 χ α + U 2 χ α := rfl
  have hSd : sigU α r0 σ0 χ = σ0 * U 0 χ α + (1 - α * r0) * U 1 χ α := rfl
  simp only [cF, cG, cGt, U2_add, (U_add χ ψ α).2, U0_eq ψ α]
  generalize radU α r0 σ0 χ = R at *
  generalize sigU α r0 σ0 χ = S at *
  field_simp
  linear_combination (U 2 ψ α) * k2 + R * U 1 ψ α * hRd + R * U 2 ψ α * hSd

theorem cFt_add (hR2 : radU α r0 σ0 (χ + ψ) ≠ 0) :
    cFt α (radU α r0 σ0 χ) (sigU α r0 σ0 χ) mu ψ * cF r0 χ α
      + cGt α (radU α r0 σ0 χ) (sigU α r0 σ0 χ) ψ * cFt α r0 σ0 mu χ
    = cFt α r0 σ0 mu (χ + ψ) := by
  have hs : Real.sqrt mu ≠ 0 := (Real.sqrt_pos.2 hmu).ne'
  have k1 := rad_key1 (α := α) (r0 := r0) (σ0 := σ0) (χ := χ)
  simp only [cF, cFt, cGt, ← radU_add, (U_add χ ψ α).2]
  have hR12 := radU_add α r0 σ0 χ ψ
  generalize radU α r0 σ0 (χ + ψ) = R12 at *
  rw [radU] at hR12
  generalize radU α r0 σ0 χ = R at *
  generalize sigU α r0 σ0 χ = S at *
  field_simp
  linear_combination (U 1 ψ α) * k1 - U 1 χ α * hR12

omit h0 in
theorem cGt_add (hR2 : radU α r0 σ0 (χ + ψ) ≠ 0) :
    cFt α (radU α r0 σ0 χ) (sigU α r0 σ0 χ) mu ψ * cG α r0 σ0 mu χ
      + cGt α (radU α r0 σ0 χ) (sigU α r0 σ0 χ) ψ * cGt α r0 σ0 χ
    = cGt α r0 σ0 (χ + ψ) := by
  have hs : Real.sqrt mu ≠ 0 := (Real.sqrt_pos.2 hmu).ne'
  have k2 := rad_key2 (α := α) (r0 := r0) (σ0 := σ0) (χ := χ)
  have e1 := U0_eq χ α
  have e2 := U0_eq ψ α
  simp only [cG, cFt, cGt, ← radU_add, U2_add]
  have hR12 := radU_add α r0 σ0 χ ψ
  generalize radU α r0 σ0 (χ + ψ) = R12 at *
  rw [radU] at hR12
  generalize radU α r0 σ0 χ = R at *
  generalize sigU α r0 σ0 χ = S at *
  field_simp
  linear_combination (U 1 ψ α) * k2 - U 2 χ α * hR12 - U 2 χ α * R * e2 + U 2 ψ α * R * e1

end lag

section
variable {r v : V3 ℝ} {mu : ℝ} (hr : r ≠ ⟨0, 0, 0⟩) (hmu : 0 < mu)
include hr hmu

theorem root_existsUnique' (t : ℝ) : ∃! χ, IsRoot r v mu t χ := by
  simp only [isRoot_iff]
  exact (kepU_bijective fun χ => radOf_nonneg hr hmu).existsUnique _

theorem isRoot_exactChi' (t : ℝ) : IsRoot r v mu t (exactChi r v mu t) := by
  have h : ∃ χ, IsRoot r v mu t χ := (root_existsUnique' hr hmu t).exists
  rw [exactChi, dif_pos h]; exact h.choose_spec

theorem exactChi_unique' {t χ : ℝ} (h : IsRoot r v mu t χ) : χ = exactChi r v mu t :=
  (root_existsUnique' hr hmu t).unique h (isRoot_exactChi' hr hmu t)

theorem exactChi_zero' : exactChi r v mu 0 = 0 :=
  (exactChi_unique' hr hmu (isRoot_iff.2 (by rw [kepU_zero]; ring))).symm

theorem kepU_exactChi' (t : ℝ) :
    kepU (alphaOf r v mu) (V3.norm r) (sigma_fn r v mu) (exactChi r v mu t) = Real.sqrt mu * t :=
  isRoot_iff.1 (isRoot_exactChi' hr hmu t)

theorem strictMono_exactChi' : StrictMono (exactChi r v mu) := by
  intro t s h
  have hm := strictMono_kepU' (α := alphaOf r v mu) (r0 := V3.norm r) (σ0 := sigma_fn r v mu)
    (fun χ => radOf_nonneg hr hmu)
  rw [← hm.lt_iff_lt, kepU_exactChi' hr hmu, kepU_exactChi' hr hmu]
  exact mul_lt_mul_of_pos_left h (Real.sqrt_pos.2 hmu)

theorem exactChi_surjective : Function.Surjective (exactChi r v mu) := by
  intro χ
  have hs := Real.sqrt_pos.2 hmu
  exact ⟨kepU (alphaOf r v mu) (V3.norm r) (sigma_fn r v mu) χ / Real.sqrt mu,
    (exactChi_unique' hr hmu (isRoot_iff.2 (by field_simp))).symm⟩

theorem continuous_exactChi' : Continuous (exactChi r v mu) :=
  (strictMono_exactChi' hr hmu).monotone.continuous_of_surjective (exactChi_surjective hr hmu)

theorem hasDerivAt_exactChi' {t : ℝ} (hR : radOf r v mu (exactChi r v mu t) ≠ 0) :
    HasDerivAt (exactChi r v mu) (Real.sqrt mu / radOf r v mu (exactChi r v mu t)) t := by
  have hs : 0 < Real.sqrt mu := Real.sqrt_pos.2 hmu
  have hd : HasDerivAt (fun χ => kepU (alphaOf r v mu) (V3.norm r) (sigma_fn r v mu) χ / Real.sqrt mu)
      (radOf r v mu (exactChi r v mu t) / Real.sqrt mu) (exactChi r v mu t) :=
    (hasDerivAt_kepU _ _ _ _).div_const _
  have := hd.of_local_left_inverse (continuous_exactChi' hr hmu).continuousAt
    (div_ne_zero hR hs.ne') (Eventually.of_forall fun s => by
      rw [kepU_exactChi' hr hmu]; field_simp)
  refine this.congr_deriv ?_
  rw [inv_div]

theorem norm_exactProp' (t : ℝ) : V3.norm (exactProp r v mu t).1 = radOf r v mu (exactChi r v mu t) := step_norm hr hmu

theorem exactProp_zero' : exactProp r v mu 0 = (r, v) := by
  rw [exactProp_eq, exactChi_zero' hr hmu]
  simp only [cF, cG, cFt, cGt, U_zero_left]
  simp only [OfNat.ofNat_ne_zero, if_false, one_ne_zero, mul_zero, add_zero, zero_div, sub_zero]
  refine Prod.ext ?_ ?_ <;> ext <;> simp

theorem stepOf_eq_exactProp' (χ : ℝ) :
    stepOf r v mu χ = exactProp r v mu (kepU (alphaOf r v mu) (V3.norm r) (sigma_fn r v mu) χ / Real.sqrt mu) := by
  have hs := Real.sqrt_pos.2 hmu
  rw [exactProp, ← exactChi_unique' hr hmu (χ := χ) (isRoot_iff.2 (by field_simp))]

end
end Adx
