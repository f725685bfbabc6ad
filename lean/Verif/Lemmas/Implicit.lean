import Verif.Lemmas.Uni
import Mathlib.Analysis.Calculus.FDeriv.OfCompLeft
import Mathlib.Analysis.Calculus.FDeriv.Mul
import Mathlib.Analysis.Calculus.FDeriv.Pow
import Mathlib.Analysis.Calculus.FDeriv.Prod
import Mathlib.Analysis.Calculus.Deriv.MeanValue
import Mathlib.Analysis.Calculus.Deriv.Prod

/-! # The root of the universal Kepler equation depends differentiably on its parameters -/

namespace Adx
open Spec V3 Filter Topology

theorem differentiableAt_U {E : Type*} [NormedAddCommGroup E] [NormedSpace ℝ E] (n : ℕ) {f g : E → ℝ} {s : E}
    (hf : DifferentiableAt ℝ f s) (hg : DifferentiableAt ℝ g s) :
    DifferentiableAt ℝ (fun s => U n (f s) (g s)) s := by
  unfold U
  exact (hf.fun_pow n).fun_mul
    (DifferentiableAt.comp (g := stumpff n) s (hasDerivAt_stumpff n (-(g s * f s ^ 2))).differentiableAt
      (hg.fun_mul (hf.fun_pow 2)).fun_neg)

theorem differentiableAt_kepU {E : Type*} [NormedAddCommGroup E] [NormedSpace ℝ E] {A B S X : E → ℝ} {s : E}
    (hA : DifferentiableAt ℝ A s) (hB : DifferentiableAt ℝ B s) (hS : DifferentiableAt ℝ S s)
    (hX : DifferentiableAt ℝ X s) : DifferentiableAt ℝ (fun s => kepU (A s) (B s) (S s) (X s)) s := by
  unfold kepU
  exact ((hB.fun_mul (differentiableAt_U 1 hX hA)).fun_add (hS.fun_mul (differentiableAt_U 2 hX hA))).fun_add
    (differentiableAt_U 3 hX hA)

theorem strictMono_kepU {α r0 σ0 : ℝ} (h : ∀ x, 0 < radU α r0 σ0 x) : StrictMono (kepU α r0 σ0) :=
  strictMono_of_deriv_pos fun x => by rw [(hasDerivAt_kepU α r0 σ0 x).deriv]; exact h x

section
variable {E : Type*} [NormedAddCommGroup E] [NormedSpace ℝ E] {A B S X : E → ℝ} {s0 : E} {c : ℝ}
  (hA : DifferentiableAt ℝ A s0) (hB : DifferentiableAt ℝ B s0) (hS : DifferentiableAt ℝ S s0)
  (hpos : ∀ᶠ s in 𝓝 s0, ∀ x, 0 < radU (A s) (B s) (S s) x)
  (hX : ∀ᶠ s in 𝓝 s0, kepU (A s) (B s) (S s) (X s) = c)
include hA hB hS hpos hX

theorem continuousAt_root : ContinuousAt X s0 := by
  have hc : ∀ x, ContinuousAt (fun s => kepU (A s) (B s) (S s) x) s0 := fun x =>
    (differentiableAt_kepU hA hB hS (differentiableAt_const x)).continuousAt
  have hm := strictMono_kepU hpos.self_of_nhds
  have h0 := hX.self_of_nhds
  refine tendsto_order.2 ⟨fun a ha => ?_, fun a ha => ?_⟩
  · have h1 : kepU (A s0) (B s0) (S s0) a < c := by rw [← h0]; exact hm ha
    filter_upwards [(hc a).eventually_lt_const h1, hpos, hX] with s h2 h3 h4
    rw [← h4] at h2
    exact (strictMono_kepU h3).lt_iff_lt.1 h2
  · have h1 : c < kepU (A s0) (B s0) (S s0) a := by rw [← h0]; exact hm ha
    filter_upwards [(hc a).eventually_const_lt h1, hpos, hX] with s h2 h3 h4
    rw [← h4] at h2
    exact (strictMono_kepU h3).lt_iff_lt.1 h2

theorem differentiableAt_root : DifferentiableAt ℝ X s0 := by
  have hcont := continuousAt_root hA hB hS hpos hX
  set k : E × ℝ → ℝ := fun q => kepU (A q.1) (B q.1) (S q.1) q.2 with hk
  have hkd : DifferentiableAt ℝ k (s0, X s0) :=
    differentiableAt_kepU (DifferentiableAt.comp (s0, X s0) hA differentiableAt_fst)
      (DifferentiableAt.comp (s0, X s0) hB differentiableAt_fst)
      (DifferentiableAt.comp (s0, X s0) hS differentiableAt_fst) differentiableAt_snd
  set k' := fderiv ℝ k (s0, X s0) with hk'
  set R := radU (A s0) (B s0) (S s0) (X s0) with hR
  have hR0 : R ≠ 0 := (hpos.self_of_nhds _).ne'
  have hkR : k' (0, 1) = R := by
    have h1 : HasDerivAt (fun x : ℝ => (s0, x)) ((0 : E), (1 : ℝ)) (X s0) :=
      (hasDerivAt_const _ _).prodMk (hasDerivAt_id _)
    have h2 := hkd.hasFDerivAt.comp_hasDerivAt (X s0) h1
    exact h2.unique (hasDerivAt_kepU (A s0) (B s0) (S s0) (X s0))
  set f' : E × ℝ →L[ℝ] E × ℝ := (ContinuousLinearMap.fst ℝ E ℝ).prod k'
  set fs : E × ℝ →L[ℝ] E × ℝ := (ContinuousLinearMap.fst ℝ E ℝ).prod
    (R⁻¹ • (ContinuousLinearMap.snd ℝ E ℝ
      - k'.comp ((ContinuousLinearMap.inl ℝ E ℝ).comp (ContinuousLinearMap.fst ℝ E ℝ))))
  have hf : HasFDerivAt (fun q : E × ℝ => (q.1, k q)) f' (s0, X s0) :=
    hasFDerivAt_fst.prodMk hkd.hasFDerivAt
  have hleft : ∀ q, fs (f' q) = q := by
    rintro ⟨δ, x⟩
    have h3 : k' (δ, x) = k' (δ, 0) + x * R := by
      rw [← hkR, ← smul_eq_mul, ← map_smul, ← map_add]; simp
    have h4 : R⁻¹ * (x * R) = x := by field_simp
    simp [fs, f', h3, h4]
  have hg : HasFDerivAt (fun s => (s, X s)) _ s0 :=
    HasFDerivAt.of_comp_of_leftInverse (f := fun q : E × ℝ => (q.1, k q)) (f'symm := fs)
      (g := fun s => (s, X s)) (h := fun s => (s, c)) (continuousAt_id.prodMk hcont) hf
      ((hasFDerivAt_id s0).prodMk (hasFDerivAt_const c s0))
      (by filter_upwards [hX] with s hs; simp [k, hs]) hleft
  exact hg.differentiableAt.snd

end

/-- `2 U4 = χ U3 + U1 U3 - U2²` -/
theorem U4_rel (χ α : ℝ) : 2 * U 4 χ α = χ * U 3 χ α + U 1 χ α * U 3 χ α - U 2 χ α ^ 2 := by
  rcases eq_or_ne α 0 with rfl | h
  · simp only [U_zero_right, Nat.factorial]; push_cast; ring
  · have e1 := U1_eq χ α
    have e2 : U 2 χ α + α * U 4 χ α = χ ^ 2 / 2 := by
      have := U_rec 2 χ α; simpa using this
    have h1 := U1_sq χ α
    apply mul_left_cancel₀ h
    linear_combination 2 * e2 + h1 + (-χ - U 1 χ α) * e1

/-- Derivatives of `U0, U1, U2` along a curve, in terms of `X' = χ' + α' U3 / 2`. -/
theorem hasDerivAt_U012 {f g : ℝ → ℝ} {f' g' s : ℝ} (hf : HasDerivAt f f' s) (hg : HasDerivAt g g' s) :
    HasDerivAt (fun s => U 0 (f s) (g s))
      (-(g s * U 1 (f s) (g s)) * (f' + g' * U 3 (f s) (g s) / 2) - g' * U 1 (f s) (g s) ^ 2 / 2) s ∧
    HasDerivAt (fun s => U 1 (f s) (g s))
      (U 0 (f s) (g s) * (f' + g' * U 3 (f s) (g s) / 2) - g' * (U 1 (f s) (g s) * U 2 (f s) (g s)) / 2) s ∧
    HasDerivAt (fun s => U 2 (f s) (g s))
      (U 1 (f s) (g s) * (f' + g' * U 3 (f s) (g s) / 2) - g' * U 2 (f s) (g s) ^ 2 / 2) s := by
  have e1 := U1_eq (f s) (g s)
  have e0 := U0_eq (f s) (g s)
  have e4 := U4_rel (f s) (g s)
  refine ⟨(hasDerivAt_U0_curve hf hg).congr_deriv ?_, (hasDerivAt_U_curve 0 hf hg).congr_deriv ?_,
    (hasDerivAt_U_curve 1 hf hg).congr_deriv ?_⟩
  · linear_combination (g' * U 1 (f s) (g s) / 2) * e1
  · push_cast; rw [e0]
    linear_combination (g' * U 2 (f s) (g s) / 2) * e1
  · push_cast
    linear_combination (g' / 2) * e4

end Adx
