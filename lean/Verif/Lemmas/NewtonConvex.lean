import Verif.Lemmas.Newton

/-! # Newton's iteration to the right of the root of a convex function: rates -/

namespace Adx
open Set

variable {f f' f'' : ℝ → ℝ}

theorem mono_of_deriv_nonneg {g g' : ℝ → ℝ} {a b : ℝ} (hg : ∀ s, HasDerivAt g (g' s) s)
    (h : ∀ s ∈ Icc a b, 0 ≤ g' s) : MonotoneOn g (Icc a b) := by
  refine monotoneOn_of_deriv_nonneg (convex_Icc a b)
    (continuous_iff_continuousAt.2 fun s => (hg s).continuousAt).continuousOn
    (fun s _ => (hg s).differentiableAt.differentiableWithinAt) ?_
  intro s hs
  rw [interior_Icc] at hs
  rw [(hg s).deriv]
  exact h s ⟨hs.1.le, hs.2.le⟩

/-- A Newton step from a point where the slope is extremal on the way to the root ends right of the root. -/
theorem newton_ge_root (hf : ∀ s, HasDerivAt f (f' s) s) {a x : ℝ} (h0 : f a = 0) (hpos : 0 < f' x)
    (hr : ∀ s ∈ Icc a x, f' s ≤ f' x) (hl : ∀ s ∈ Icc x a, f' x ≤ f' s) : a ≤ newton f f' x := by
  have key : f x ≤ f' x * (x - a) := by
    have hd : ∀ s, HasDerivAt (fun s => f' x * s - f s) (f' x - f' s) s := fun s => by
      simpa using ((hasDerivAt_id' s).const_mul (f' x)).fun_sub (hf s)
    have hd' : ∀ s, HasDerivAt (fun s => f s - f' x * s) (f' s - f' x) s := fun s => by
      simpa using (hf s).fun_sub ((hasDerivAt_id' s).const_mul (f' x))
    rcases le_total a x with h | h
    · have := mono_of_deriv_nonneg hd (fun s hs => sub_nonneg.2 (hr s hs)) (left_mem_Icc.2 h) (right_mem_Icc.2 h) h
      simp only [h0] at this
      linarith
    · have := mono_of_deriv_nonneg hd' (fun s hs => sub_nonneg.2 (hl s hs)) (left_mem_Icc.2 h) (right_mem_Icc.2 h) h
      simp only [h0] at this
      linarith
  have : f x / f' x ≤ x - a := by rw [div_le_iff₀ hpos]; linarith
  rw [newton]; linarith

/-- Quadratic convergence, with the ratio of curvature and slope. -/
theorem newton_quad (hf : ∀ s, HasDerivAt f (f' s) s) (hf' : ∀ s, HasDerivAt f' (f'' s) s) {a x C : ℝ}
    (hax : a ≤ x) (h0 : f a = 0) (hpos : 0 < f' x) (hC : ∀ s ∈ Icc a x, f'' s ≤ C * f' x) :
    newton f f' x - a ≤ C / 2 * (x - a) ^ 2 := by
  have h1 : ∀ s ∈ Icc a x, f' x - f' s ≤ C * f' x * (x - s) := by
    intro s hs
    have hd : ∀ s, HasDerivAt (fun s => C * f' x * s - f' s) (C * f' x - f'' s) s := fun s => by
      simpa using ((hasDerivAt_id' s).const_mul (C * f' x)).fun_sub (hf' s)
    have := mono_of_deriv_nonneg hd (fun s hs => sub_nonneg.2 (hC s hs)) hs (right_mem_Icc.2 hax) hs.2
    simp only at this
    linarith
  have h2 : f' x * (x - a) - f x ≤ C * f' x * (x - a) ^ 2 / 2 := by
    have hd : ∀ s, HasDerivAt (fun s => f s - f' x * s - C * f' x * ((x - s) ^ 2 / 2))
        (f' s - f' x + C * f' x * (x - s)) s := fun s => by
      have e1 : HasDerivAt (fun s : ℝ => (x - s) ^ 2 / 2) (-(x - s)) s := by
        have e0 : HasDerivAt (fun s : ℝ => x - s) (-1) s := (hasDerivAt_id' s).const_sub x
        have e2 := (e0.fun_mul e0).div_const 2
        refine (e2.congr_of_eventuallyEq (Filter.Eventually.of_forall fun t => ?_)).congr_deriv (by ring)
        simp only [pow_two]
      refine (((hf s).fun_sub ((hasDerivAt_id' s).const_mul (f' x))).fun_sub (e1.const_mul (C * f' x))).congr_deriv ?_
      ring
    have := mono_of_deriv_nonneg hd (fun s hs => by linarith [h1 s hs]) (left_mem_Icc.2 hax) (right_mem_Icc.2 hax) hax
    simp only [h0, sub_self] at this
    nlinarith
  have h3 : newton f f' x - a = (f' x * (x - a) - f x) / f' x := by rw [newton]; field_simp; ring
  rw [h3, div_le_iff₀ hpos]
  nlinarith

/-- Linear convergence, from a lower bound on the mean slope. -/
theorem newton_lin {a x κ : ℝ} (hpos : 0 < f' x) (hκ : κ * f' x * (x - a) ≤ f x) :
    newton f f' x - a ≤ (1 - κ) * (x - a) := by
  have : κ * (x - a) ≤ f x / f' x := by rw [le_div_iff₀ hpos]; linarith
  rw [newton]; linarith

/-- Linear and then doubly exponential decay. -/
theorem decay {δ : ℕ → ℝ} {ρ c D : ℝ} (hρ : 0 ≤ ρ) (hc : 0 < c) (hpos : ∀ k, 0 ≤ δ k) (h0 : δ 0 ≤ D)
    (hlin : ∀ k, δ (k + 1) ≤ ρ * δ k) (hquad : ∀ k, δ (k + 1) ≤ c * δ k ^ 2) {n : ℕ} (hn : ρ ^ n * D * c ≤ 1 / 2)
    (m : ℕ) : δ (n + m) ≤ (1 / 2) ^ 2 ^ m / c := by
  induction m with
  | zero =>
    have h1 : ∀ k, δ k ≤ ρ ^ k * D := by
      intro k
      induction k with
      | zero => simpa using h0
      | succ k ih =>
        refine (hlin k).trans ?_
        rw [pow_succ', mul_assoc]
        exact mul_le_mul_of_nonneg_left ih hρ
    rw [le_div_iff₀ hc, pow_zero, pow_one, add_zero]
    exact (mul_le_mul_of_nonneg_right (h1 n) hc.le).trans hn
  | succ m ih =>
    refine (hquad (n + m)).trans ?_
    have h2 : δ (n + m) ^ 2 ≤ ((1 / 2) ^ 2 ^ m / c) ^ 2 := pow_le_pow_left₀ (hpos _) ih 2
    refine (mul_le_mul_of_nonneg_left h2 hc.le).trans (le_of_eq ?_)
    rw [pow_succ 2 m, pow_mul]
    field_simp

end Adx
