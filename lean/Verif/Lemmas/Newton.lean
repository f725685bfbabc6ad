import Mathlib.Analysis.Calculus.MeanValue
import Mathlib.Analysis.Calculus.Deriv.MeanValue
import Mathlib.Analysis.Calculus.Deriv.Add
import Mathlib.Analysis.Calculus.Deriv.Mul
import Mathlib.Analysis.Calculus.Deriv.Comp
import Mathlib.Analysis.Convex.Deriv
import Mathlib.Topology.Order.MonotoneConvergence
import Mathlib.Topology.Order.IntermediateValue

/-! # Increasing real functions and Newton's iteration -/

namespace Adx
open Filter Topology

variable {f f' : ℝ → ℝ}

/-- Slope at least `m > 0`: expanding. -/
theorem slope_le {m : ℝ} (hf : ∀ x, HasDerivAt f (f' x) x) (hm : ∀ x, m ≤ f' x) {x y : ℝ} (h : x ≤ y) :
    m * (y - x) ≤ f y - f x :=
  mul_sub_le_image_sub_of_le_deriv (fun x => (hf x).differentiableAt)
    (fun x => by rw [(hf x).deriv]; exact hm x) h

theorem abs_sub_le_of_slope {m : ℝ} (hm0 : 0 < m) (hf : ∀ x, HasDerivAt f (f' x) x)
    (hm : ∀ x, m ≤ f' x) (x y : ℝ) : |x - y| ≤ |f x - f y| / m := by
  rw [le_div_iff₀ hm0]
  rcases le_total x y with h | h
  · have := slope_le hf hm h
    rw [abs_sub_comm, abs_sub_comm (f x), abs_of_nonneg (by linarith : 0 ≤ y - x)]
    exact le_trans (by linarith) (le_abs_self _)
  · have := slope_le hf hm h
    rw [abs_of_nonneg (by linarith : 0 ≤ x - y)]
    exact le_trans (by linarith) (le_abs_self _)

theorem strictMono_of_slope {m : ℝ} (hm0 : 0 < m) (hf : ∀ x, HasDerivAt f (f' x) x)
    (hm : ∀ x, m ≤ f' x) : StrictMono f := fun x y h => by
  have := slope_le hf hm h.le
  have := mul_pos hm0 (sub_pos.2 h)
  linarith

theorem existsUnique_root {m : ℝ} (hm0 : 0 < m) (hf : ∀ x, HasDerivAt f (f' x) x)
    (hm : ∀ x, m ≤ f' x) (y : ℝ) : ∃! x, f x = y := by
  have hmono := strictMono_of_slope hm0 hf hm
  have hc : Continuous f := continuous_iff_continuousAt.2 fun x => (hf x).continuousAt
  obtain ⟨x, hx⟩ : ∃ x, f x = y := by
    set b := |y - f 0| / m with hb
    have hb0 : 0 ≤ b := by positivity
    have hbm : m * b = |y - f 0| := by rw [hb]; field_simp
    have h1 : f (-b) ≤ y := by
      have := slope_le hf hm (by linarith : -b ≤ 0)
      have := neg_abs_le (y - f 0)
      nlinarith
    have h2 : y ≤ f b := by
      have := slope_le hf hm hb0
      have := le_abs_self (y - f 0)
      nlinarith
    exact mem_range_of_exists_le_of_exists_ge hc ⟨_, h1⟩ ⟨_, h2⟩
  exact ⟨x, hx, fun z hz => hmono.injective (hz.trans hx.symm)⟩

/-! ### Newton's iteration -/

/-- Newton's step for `f` with slope `f'`. -/
noncomputable def newton (f f' : ℝ → ℝ) (x : ℝ) : ℝ := x - f x / f' x

theorem newton_fixed {x : ℝ} (hpos : 0 < f' x) : newton f f' x = x ↔ f x = 0 := by
  unfold newton
  constructor
  · intro h
    have : f x / f' x = 0 := by linarith
    simpa [hpos.ne'] using this
  · intro h; simp [h]

theorem limit_is_root (hf : ∀ x, HasDerivAt f (f' x) x) (hpos : ∀ x, 0 < f' x) (hc' : Continuous f')
    {x0 L : ℝ} (h : Tendsto (fun n => (newton f f')^[n] x0) atTop (𝓝 L)) : f L = 0 := by
  have hc : Continuous f := continuous_iff_continuousAt.2 fun x => (hf x).continuousAt
  have hN : Continuous (newton f f') := continuous_id.sub (hc.div hc' fun x => (hpos x).ne')
  have h1 := h.comp (tendsto_add_atTop_nat 1)
  have h2 := (hN.tendsto L).comp h
  have h3 : (fun n => (newton f f')^[n] x0) ∘ (fun a => a + 1)
      = newton f f' ∘ fun n => (newton f f')^[n] x0 := by
    funext n; simp only [Function.comp, Function.iterate_succ_apply']
  rw [h3] at h1
  exact (newton_fixed (hpos L)).1 (tendsto_nhds_unique h2 h1)

/-- Newton's iteration on an increasing function that is convex to the right of a point `c` left of the
root converges to the root from *every* starting point. -/
theorem newton_tendsto_right (hf : ∀ x, HasDerivAt f (f' x) x) (hpos : ∀ x, 0 < f' x)
    (hc' : Continuous f') {c : ℝ} (hc0 : f c ≤ 0) (hmono : MonotoneOn f' (Set.Ici c))
    {xs : ℝ} (hxs : f xs = 0) (x0 : ℝ) :
    Tendsto (fun n => (newton f f')^[n] x0) atTop (𝓝 xs) := by
  have hfm : StrictMono f := strictMono_of_hasDerivAt_pos hf hpos
  have hcx : c ≤ xs := hfm.le_iff_le.1 (by rw [hxs]; exact hc0)
  have hc : Continuous f := continuous_iff_continuousAt.2 fun x => (hf x).continuousAt
  set N := newton f f' with hN
  -- tangent below the graph
  have htan : ∀ x, c ≤ x → ∀ y, c ≤ y → f x + f' x * (y - x) ≤ f y := by
    intro x hx y hy
    rcases lt_trichotomy x y with h | rfl | h
    · obtain ⟨z, hz, hz'⟩ := exists_hasDerivAt_eq_slope f f' h hc.continuousOn fun z _ => hf z
      have h1 : f' x ≤ f' z := hmono hx (hx.trans hz.1.le) hz.1.le
      rw [eq_div_iff (by linarith)] at hz'
      nlinarith
    · simp
    · obtain ⟨z, hz, hz'⟩ := exists_hasDerivAt_eq_slope f f' h hc.continuousOn fun z _ => hf z
      have h1 : f' z ≤ f' x := hmono (hy.trans hz.1.le) hx hz.2.le
      rw [eq_div_iff (by linarith)] at hz'
      nlinarith
  have hge : ∀ x, c ≤ x → xs ≤ N x := by
    intro x hx
    have h := htan x hx xs hcx
    rw [hxs] at h
    have : f x / f' x ≤ x - xs := by
      rw [div_le_iff₀ (hpos x)]; linarith
    simp only [hN, newton]; linarith
  have hdec : ∀ x, xs ≤ x → N x ≤ x := by
    intro x hx
    have h : 0 ≤ f x := by rw [← hxs]; exact hfm.monotone hx
    have := div_nonneg h (hpos x).le
    simp only [hN, newton]; linarith
  suffices h : ∃ L, Tendsto (fun n => N^[n] x0) atTop (𝓝 L) by
    obtain ⟨L, hL⟩ := h
    have := limit_is_root hf hpos hc' hL
    rwa [hfm.injective (this.trans hxs.symm)] at hL
  by_cases hA : ∃ n, c ≤ N^[n] x0
  · obtain ⟨n, hn⟩ := hA
    have hstay : ∀ k, xs ≤ N^[k + (n + 1)] x0 := by
      intro k
      induction k with
      | zero => rw [zero_add, Function.iterate_succ_apply']; exact hge _ hn
      | succ k ih =>
        rw [show k + 1 + (n + 1) = (k + (n + 1)) + 1 by ring, Function.iterate_succ_apply']
        exact hge _ (hcx.trans ih)
    have hanti : Antitone fun k => N^[k + (n + 1)] x0 := by
      refine antitone_nat_of_succ_le fun k => ?_
      rw [show k + 1 + (n + 1) = (k + (n + 1)) + 1 by ring, Function.iterate_succ_apply']
      exact hdec _ (hstay k)
    have hbdd : BddBelow (Set.range fun k => N^[k + (n + 1)] x0) :=
      ⟨xs, by rintro _ ⟨k, rfl⟩; exact hstay k⟩
    exact ⟨_, (tendsto_add_atTop_iff_nat (n + 1)).1 (tendsto_atTop_ciInf hanti hbdd)⟩
  · push Not at hA
    have hm : Monotone fun n => N^[n] x0 := by
      refine monotone_nat_of_le_succ fun n => ?_
      have h1 : f (N^[n] x0) ≤ 0 := (hfm (hA n)).le.trans hc0
      have := div_nonpos_of_nonpos_of_nonneg h1 (hpos (N^[n] x0)).le
      simp only [Function.iterate_succ_apply', hN, newton] at this ⊢
      linarith
    have hbdd : BddAbove (Set.range fun n => N^[n] x0) := ⟨c, by rintro _ ⟨k, rfl⟩; exact (hA k).le⟩
    exact ⟨_, tendsto_atTop_ciSup hm hbdd⟩

/-- The mirror image: concave to the left of a point `c` right of the root. -/
theorem newton_tendsto_left (hf : ∀ x, HasDerivAt f (f' x) x) (hpos : ∀ x, 0 < f' x)
    (hc' : Continuous f') {c : ℝ} (hc0 : 0 ≤ f c) (hanti : AntitoneOn f' (Set.Iic c))
    {xs : ℝ} (hxs : f xs = 0) (x0 : ℝ) :
    Tendsto (fun n => (newton f f')^[n] x0) atTop (𝓝 xs) := by
  have hg : ∀ x, HasDerivAt (fun x => -f (-x)) (f' (-x)) x := by
    intro x
    have h := ((hf (-x)).scomp x (hasDerivAt_neg x)).fun_neg
    refine h.congr_deriv ?_
    simp
  have hmono : MonotoneOn (fun x => f' (-x)) (Set.Ici (-c)) := by
    intro x hx y hy hxy
    simp only [Set.mem_Ici] at hx hy
    exact hanti (by simp only [Set.mem_Iic]; linarith) (by simp only [Set.mem_Iic]; linarith)
      (by linarith)
  have key := newton_tendsto_right (f := fun x => -f (-x)) (f' := fun x => f' (-x)) (c := -c)
    (xs := -xs) hg (fun x => hpos _) (hc'.comp continuous_neg) (by simpa using hc0) hmono
    (by simpa using hxs) (-x0)
  have hit : ∀ n, (newton (fun x => -f (-x)) fun x => f' (-x))^[n] (-x0) = -(newton f f')^[n] x0 := by
    intro n
    induction n with
    | zero => rfl
    | succ n ih =>
      rw [Function.iterate_succ_apply', Function.iterate_succ_apply', ih]
      simp only [newton, neg_neg]; ring
  simp only [hit] at key
  simpa using key.neg

/-- Newton's iteration converges from everywhere if `f'` decreases up to `c` and increases after `c`. -/
theorem newton_tendsto (hf : ∀ x, HasDerivAt f (f' x) x) (hpos : ∀ x, 0 < f' x) (hc' : Continuous f')
    {c : ℝ} (hanti : AntitoneOn f' (Set.Iic c)) (hmono : MonotoneOn f' (Set.Ici c))
    {xs : ℝ} (hxs : f xs = 0) (x0 : ℝ) :
    Tendsto (fun n => (newton f f')^[n] x0) atTop (𝓝 xs) := by
  rcases le_total (f c) 0 with h | h
  · exact newton_tendsto_right hf hpos hc' h hmono hxs x0
  · exact newton_tendsto_left hf hpos hc' h hanti hxs x0

end Adx
