import Verif.Props.C78b
import Mathlib.Analysis.Calculus.IteratedDeriv.Defs

/-! # C78, continued: where derivatives of higher order go wrong -/

namespace Adx
open Spec Filter Topology
open scoped ContDiff

/-- The successive derivatives of a smooth function. -/
theorem smooth_derivs {g : ℝ → ℝ} {s : ℝ} (hg : ContDiffAt ℝ ∞ g s) :
    (∀ᶠ x in 𝓝 s, HasDerivAt g (deriv g x) x) ∧ ContDiffAt ℝ ∞ (deriv g) s := by
  constructor
  · have : ∀ᶠ x in 𝓝 s, ContDiffAt ℝ 1 g x := (hg.of_le (by exact_mod_cast le_top)).eventually (by simp)
    filter_upwards [this] with x hx using (hx.differentiableAt (by norm_num)).hasDerivAt
  · have h := hg.fderiv_right (m := ∞) (by simp)
    have h2 := h.clm_apply (contDiffAt_const (c := (1 : ℝ)))
    exact h2

/-- The third derivative at 0 of a function that solves the differentiated Newton step. -/
theorem third_of_step {e : ℝ} {x xa xb xc g : ℝ → ℝ} (hg : ContDiffAt ℝ ∞ g 0) (hx : ∀ m, HasDerivAt x (xa m) m)
    (hxa : ∀ m, HasDerivAt xa (xb m) m) (hxb : ∀ m, HasDerivAt xb (xc m) m) (h0 : x 0 = 0) (g0 : g 0 = 0) (he : e < 1)
    (heq : ∀ᶠ m in 𝓝 (0 : ℝ), (1 - e * Real.cos (x m)) * deriv g m = 1 + (x m - g m) * (e * Real.sin (x m) * xa m)) :
    deriv g 0 = 1 / (1 - e) ∧ iteratedDeriv 2 g 0 = 0 ∧
    iteratedDeriv 3 g 0 = e * xa 0 ^ 2 * (2 * xa 0 - 3 / (1 - e)) / (1 - e) := by
  obtain ⟨d1, s1⟩ := smooth_derivs hg
  obtain ⟨d2, s2⟩ := smooth_derivs s1
  obtain ⟨d3, -⟩ := smooth_derivs s2
  have hD : ∀ m, HasDerivAt (fun m => 1 - e * Real.cos (x m)) (e * Real.sin (x m) * xa m) m := fun m =>
    (((hx m).cos.const_mul e).const_sub 1).congr_deriv (by ring)
  have hS : ∀ m, HasDerivAt (fun m => e * Real.sin (x m) * xa m)
      (e * Real.cos (x m) * xa m ^ 2 + e * Real.sin (x m) * xb m) m := fun m =>
    (((hx m).sin.const_mul e).mul (hxa m)).congr_deriv (by ring)
  have hT : ∀ m, HasDerivAt (fun m => e * Real.cos (x m) * xa m ^ 2 + e * Real.sin (x m) * xb m)
      (-(e * Real.sin (x m)) * xa m ^ 3 + 3 * e * Real.cos (x m) * xa m * xb m + e * Real.sin (x m) * xc m) m := fun m =>
    ((((hx m).cos.const_mul e).mul ((hxa m).pow 2)).add (((hx m).sin.const_mul e).mul (hxb m))).congr_deriv
      (by simp only [Pi.pow_apply]; push_cast; ring)
  have eq2 : ∀ᶠ m in 𝓝 (0 : ℝ), e * Real.sin (x m) * xa m * deriv g m + (1 - e * Real.cos (x m)) * deriv (deriv g) m
      = (xa m - deriv g m) * (e * Real.sin (x m) * xa m)
        + (x m - g m) * (e * Real.cos (x m) * xa m ^ 2 + e * Real.sin (x m) * xb m) := by
    filter_upwards [heq.eventually_nhds, d1, d2] with m hm h1 h2
    have l := (hD m).mul h2
    have r := (((hx m).sub h1).mul (hS m)).const_add 1
    exact (l.congr_of_eventuallyEq (hm.mono fun y hy => hy.symm)).unique r
  have a1 := heq.self_of_nhds
  have a2 := eq2.self_of_nhds
  have l := ((hS 0).mul d2.self_of_nhds).add ((hD 0).mul d3.self_of_nhds)
  have r := ((((hxa 0).sub d2.self_of_nhds).mul (hS 0)).add (((hx 0).sub d1.self_of_nhds).mul (hT 0)))
  have a3 := (l.congr_of_eventuallyEq (eq2.mono fun y hy => hy.symm)).unique r
  simp only [h0, g0, Real.cos_zero, Real.sin_zero, mul_one, mul_zero, zero_mul, add_zero, zero_add, neg_zero,
    sub_self, Pi.sub_apply] at a1 a2 a3
  have hq : (1 : ℝ) - e ≠ 0 := by linarith
  have b1 : deriv g 0 = 1 / (1 - e) := by rw [eq_div_iff hq]; linarith
  have b2 : deriv (deriv g) 0 = 0 := by simpa [hq] using a2
  refine ⟨b1, ?_, ?_⟩
  · simpa [iteratedDeriv_succ] using b2
  · have : iteratedDeriv 3 g 0 = deriv (deriv (deriv g)) 0 := by simp [iteratedDeriv_succ]
    rw [this]
    rw [b1] at a3
    field_simp at a3 ⊢
    linarith

/-- The first three derivatives at `M = 0` of the root of Kepler's equation. -/
theorem elps_root_third {e : ℝ} (he0 : 0 ≤ e) (he1 : e < 1) {Es : ℝ → ℝ}
    (hroot : ∀ᶠ M in 𝓝 (0 : ℝ), kepler_equ_elps (Es M) e M = 0) :
    Es 0 = 0 ∧ deriv Es 0 = 1 / (1 - e) ∧ iteratedDeriv 2 Es 0 = 0 ∧ iteratedDeriv 3 Es 0 = -e / (1 - e) ^ 4 := by
  have hz : Es 0 = 0 := by
    have h := hroot.self_of_nhds
    rw [kep_elps_eq, sub_zero] at h
    have h1 : |Es 0| = e * |Real.sin (Es 0)| := by
      rw [show Es 0 = e * Real.sin (Es 0) by linarith, abs_mul, abs_of_nonneg he0,
        ← show Es 0 = e * Real.sin (Es 0) by linarith]
    have h2 : |Real.sin (Es 0)| ≤ |Es 0| := Real.abs_sin_le_abs
    have := abs_nonneg (Es 0)
    have h3 : |Es 0| = 0 := by nlinarith
    exact abs_eq_zero.1 h3
  have hne : ∀ y : ℝ, (1 : ℝ) - e * Real.cos y ≠ 0 := fun y => by
    have := Real.cos_le_one y
    nlinarith
  have d1 : ∀ᶠ m in 𝓝 (0 : ℝ), HasDerivAt Es (1 / (1 - e * Real.cos (Es m))) m := by
    filter_upwards [hroot.eventually_nhds] with m hm
    have := elps_root_deriv (M := fun s => s) (e := fun _ => e) (Tracks.var m) (Tracks.const e) he0 he1 hm
    simpa [Dual.dot, cst] using this
  have f1 : ∀ m, HasDerivAt Es (1 / (1 - e * Real.cos (Es m))) m →
      HasDerivAt (fun m => 1 / (1 - e * Real.cos (Es m))) (-(e * Real.sin (Es m)) / (1 - e * Real.cos (Es m)) ^ 3) m := by
    intro m h
    refine ((hasDerivAt_const m (1 : ℝ)).div ((h.cos.const_mul e).const_sub 1) (hne _)).congr_deriv ?_
    have := hne (Es m)
    field_simp
    ring
  have f2 : HasDerivAt (fun m => -(e * Real.sin (Es m)) / (1 - e * Real.cos (Es m)) ^ 3) (-e / (1 - e) ^ 4) 0 := by
    have h := d1.self_of_nhds
    refine (((h.sin.const_mul e).neg).div (((h.cos.const_mul e).const_sub 1).pow 3) (pow_ne_zero 3 (hne _))).congr_deriv ?_
    have hq : (1 : ℝ) - e ≠ 0 := by linarith
    simp only [hz, Pi.pow_apply, Pi.neg_apply, Real.sin_zero, Real.cos_zero]
    field_simp
    ring
  have e1 : deriv Es =ᶠ[𝓝 0] fun m => 1 / (1 - e * Real.cos (Es m)) := d1.mono fun m h => h.deriv
  have e2 : deriv (deriv Es) =ᶠ[𝓝 0] fun m => -(e * Real.sin (Es m)) / (1 - e * Real.cos (Es m)) ^ 3 := by
    filter_upwards [e1.eventually_nhds, d1] with m h1 h2
    have h1 : deriv Es =ᶠ[𝓝 m] fun m => 1 / (1 - e * Real.cos (Es m)) := h1
    rw [h1.deriv_eq]
    exact (f1 m h2).deriv
  refine ⟨hz, ?_, ?_, ?_⟩
  · rw [e1.self_of_nhds]; simp [hz]
  · have : iteratedDeriv 2 Es 0 = deriv (deriv Es) 0 := by simp [iteratedDeriv_succ]
    rw [this, e2.self_of_nhds]; simp [hz]
  · have : iteratedDeriv 3 Es 0 = deriv (deriv (deriv Es)) 0 := by simp [iteratedDeriv_succ]
    rw [this, e2.deriv_eq]
    exact f2.deriv

/-- C78, refuted for the elliptic solver: at `M = 0`, whatever the tolerance and the iteration limit, the third derivative
of the eccentric anomaly comes out as `-e (1 - 3 e⁶ + 2 e⁹)/(1-e)⁴` instead of `-e/(1-e)⁴`. The first and second derivatives
are right. -/
theorem C78_elps_third_refuted {e tol : ℝ} (he0 : 0 < e) (he1 : e < 1) (htol : 0 < tol) {n : ℕ} (hn : n ≠ 0) :
    (∃ d, solve_kepler_elps (DualN.input (fun _ => 1) 0 1) (DualN.const 1 e) (DualN.const 1 tol) n = some d ∧
      DualN.top 1 d = 1 / (1 - e)) ∧
    (∃ d, solve_kepler_elps (DualN.input (fun _ => 1) 0 2) (DualN.const 2 e) (DualN.const 2 tol) n = some d ∧
      DualN.top 2 d = 0) ∧
    (∃ d, solve_kepler_elps (DualN.input (fun _ => 1) 0 3) (DualN.const 3 e) (DualN.const 3 tol) n = some d ∧
      DualN.base 3 d = 0 ∧ DualN.top 3 d = -e * (1 - 3 * e ^ 6 + 2 * e ^ 9) / (1 - e) ^ 4) ∧
    (∀ Es : ℝ → ℝ, (∀ᶠ M in 𝓝 (0 : ℝ), kepler_equ_elps (Es M) e M = 0) →
      deriv Es 0 = 1 / (1 - e) ∧ iteratedDeriv 2 Es 0 = 0 ∧ iteratedDeriv 3 Es 0 = -e / (1 - e) ^ 4) ∧
    -e * (1 - 3 * e ^ 6 + 2 * e ^ 9) / (1 - e) ^ 4 ≠ -e / (1 - e) ^ 4 := by
  have hq : (0 : ℝ) < 1 - e := by linarith
  have hst : elpsStart (0 : ℝ) e = 0 := by simp [elpsStart]
  have hnt : newtonElps (0 : ℝ) e 0 = 0 := by simp [newtonElps, kepler_equ_elps]
  have key : ∀ lv : ℕ, ∃ d, solve_kepler_elps (DualN.input (fun _ => 1) 0 lv) (DualN.const lv e) (DualN.const lv tol) n = some d ∧
      Jet (fun _ => (1 : ℝ)) (fun m => newtonElps m e (elpsStart m e)) 0 d := by
    intro lv
    have hM : Jet (fun _ => (1 : ℝ)) (fun m : ℝ => m) 0 (DualN.input (fun _ => 1) 0 lv) := by
      exact Jet.input (v := fun _ => (1 : ℝ)) (s := (0 : ℝ)) (ContinuousLinearMap.id ℝ ℝ) lv
    have hc : Jet (fun _ => (1 : ℝ)) (fun _ : ℝ => e) 0 (DualN.const lv e) := Jet.const e
    have i0 := C78_elps_iterate hM hc he0.le he1 0
    have i1 := C78_elps_iterate hM hc he0.le he1 1
    refine ⟨_, elps_of_tests (k := 1) (by omega) (fun j hj => ?_) (fun _ => ?_), i1⟩
    · obtain rfl : j = 0 := by omega
      have t := i0.sub (i0.add ((Jet.nat 2).mul (Jet.const tol)))
      refine (test_iff t tol).trans ?_
      simp only [decide_eq_true_eq]
      rw [sub_add_cancel_left, abs_neg, abs_of_pos (by simpa using htol)]
      push_cast
      linarith
    · refine (test_iff (i1.sub i0) tol).trans ?_
      simpa [hst, hnt] using htol.le
  have fin : ∀ {lv : ℕ} {d : DualN lv}, Jet (fun _ => (1 : ℝ)) (fun m => newtonElps m e (elpsStart m e)) 0 d →
      DualN.top lv d = iteratedDeriv lv (fun m => newtonElps m e (elpsStart m e)) 0 := fun h => h.top
  have hx : ∀ m : ℝ, HasDerivAt (fun m => elpsStart m e) (1 + e * Real.cos m + e ^ 2 * Real.cos (2 * m)) m := by
    intro m
    have h2 : HasDerivAt (fun m : ℝ => Real.sin (2 * m)) (Real.cos (2 * m) * 2) m :=
      (((hasDerivAt_id m).const_mul 2).congr_deriv (by ring)).sin
    refine ((((hasDerivAt_id m).add ((Real.hasDerivAt_sin m).const_mul e)).add
      ((h2.const_mul (e ^ 2)).div_const 2)).congr_deriv (by ring)).congr_of_eventuallyEq (.of_eq ?_)
    funext y
    simp [elpsStart]
  have hxa : ∀ m : ℝ, HasDerivAt (fun m => 1 + e * Real.cos m + e ^ 2 * Real.cos (2 * m))
      (-(e * Real.sin m) - 2 * e ^ 2 * Real.sin (2 * m)) m := by
    intro m
    have h2 : HasDerivAt (fun m : ℝ => Real.cos (2 * m)) (-Real.sin (2 * m) * 2) m :=
      (((hasDerivAt_id m).const_mul 2).congr_deriv (by ring)).cos
    exact ((((Real.hasDerivAt_cos m).const_mul e).const_add 1).add (h2.const_mul (e ^ 2))).congr_deriv (by ring)
  have hxb : ∀ m : ℝ, HasDerivAt (fun m => -(e * Real.sin m) - 2 * e ^ 2 * Real.sin (2 * m))
      (-(e * Real.cos m) - 4 * e ^ 2 * Real.cos (2 * m)) m := by
    intro m
    have h2 : HasDerivAt (fun m : ℝ => Real.sin (2 * m)) (Real.cos (2 * m) * 2) m :=
      (((hasDerivAt_id m).const_mul 2).congr_deriv (by ring)).sin
    exact ((((Real.hasDerivAt_sin m).const_mul e).neg).sub (h2.const_mul (2 * e ^ 2))).congr_deriv (by ring)
  have hgd : ∀ m : ℝ, (1 - e * Real.cos (elpsStart m e)) * deriv (fun m => newtonElps m e (elpsStart m e)) m
      = 1 + (elpsStart m e - newtonElps m e (elpsStart m e))
        * (e * Real.sin (elpsStart m e) * (1 + e * Real.cos m + e ^ 2 * Real.cos (2 * m))) := by
    intro m
    have hD : (1 : ℝ) - e * Real.cos (elpsStart m e) ≠ 0 := by
      have := Real.cos_le_one (elpsStart m e)
      nlinarith
    have hn : HasDerivAt (fun m => elpsStart m e - e * Real.sin (elpsStart m e) - m) _ m :=
      ((hx m).sub ((hx m).sin.const_mul e)).sub (hasDerivAt_id m)
    have hd := ((hx m).cos.const_mul e).const_sub 1
    have h : HasDerivAt (fun m => newtonElps m e (elpsStart m e)) _ m :=
      ((hx m).sub (hn.div hd hD)).congr_of_eventuallyEq (.of_eq (by funext y; simp [newtonElps, kepler_equ_elps, dE]))
    rw [h.deriv]
    have hv : newtonElps m e (elpsStart m e) = elpsStart m e
        - (elpsStart m e - e * Real.sin (elpsStart m e) - m) / (1 - e * Real.cos (elpsStart m e)) := by
      simp [newtonElps, kepler_equ_elps, dE]
    rw [hv]
    field_simp
    ring
  obtain ⟨d0, -, j0⟩ := key 3
  obtain ⟨t1, t2, t3⟩ := third_of_step j0.smooth hx hxa hxb hst (by simp [hst, hnt]) he1 (.of_forall hgd)
  simp only [mul_zero, Real.cos_zero, mul_one] at t3
  refine ⟨?_, ?_, ?_, fun Es h => (elps_root_third he0.le he1 h).2, ?_⟩
  · obtain ⟨d, h1, h2⟩ := key 1
    exact ⟨d, h1, by rw [fin h2, iteratedDeriv_one, t1]⟩
  · obtain ⟨d, h1, h2⟩ := key 2
    exact ⟨d, h1, by rw [fin h2, t2]⟩
  · obtain ⟨d, h1, h2⟩ := key 3
    refine ⟨d, h1, by rw [h2.base]; simp [hst, hnt], ?_⟩
    rw [fin h2, t3]
    field_simp
    ring
  · intro h
    rw [div_left_inj' (by positivity)] at h
    have h1 : e ^ 6 * (3 - 2 * e ^ 3) = 0 := by
      have := mul_left_cancel₀ (neg_ne_zero.2 he0.ne') (h.trans (mul_one _).symm)
      linarith
    have h3 : e ^ 3 < 1 := pow_lt_one₀ he0.le he1 (by norm_num)
    have : 0 < e ^ 6 * (3 - 2 * e ^ 3) := mul_pos (by positivity) (by linarith)
    linarith

/-- The zero function has derivatives 0. -/
theorem top_zero {E : Type} [NormedAddCommGroup E] [NormedSpace ℝ E] {v : ℕ → E} {x : E} {n : ℕ} :
    ∀ {d : DualN n}, Carries v x n (fun _ => 0) d → DualN.top n d = 0 := by
  induction n with
  | zero => exact fun h => h
  | succ n ih =>
    intro d h
    have h2 := (carries_succ.1 h).2
    rw [show along (v n) (fun _ : E => (0 : ℝ)) = fun _ => 0 by funext y; simp [along]] at h2
    show (Option.map (DualN.top n) (Dual.tan (α := DualN n) d)).getD 0 = 0
    generalize Dual.tan (α := DualN n) d = t at h2
    rcases t with _ | t
    · rfl
    · exact ih h2

theorem topO_zero {E : Type} [NormedAddCommGroup E] [NormedSpace ℝ E] {v : ℕ → E} {x : E} {n : ℕ}
    {t : Option (DualN n)} (h : CarriesO v x n (fun _ => 0) t) : (t.map (DualN.top n)).getD 0 = 0 := by
  rcases t with _ | t
  · rfl
  · exact top_zero h

/-- C78, refuted for the universal functions at `α = 0`: the mixed second derivative of `U₂`, first with respect to `α` and
then to `χ`, comes out as 0 instead of `-χ³/6`. -/
theorem C78_ufunc_refuted (χ : ℝ) :
    DualN.top 2 (ufunc2 (DualN.input (fun k => if k = 0 then 1 else 0) χ 2) (DualN.input (fun k => if k = 0 then 0 else 1) 0 2)) = 0 ∧
    HasDerivAt (fun x => deriv (fun a => ufunc2 x a) 0) (-χ ^ 3 / 6) χ := by
  constructor
  · set dir : ℕ → ℝ × ℝ := fun k => if k = 0 then (1, 0) else (0, 1)
    have h1 : Jet dir (fun s : ℝ × ℝ => s.1) (χ, 0) (DualN.input (fun k => if k = 0 then 1 else 0) χ 2) := by
      have := Jet.input (v := dir) (s := ((χ, 0) : ℝ × ℝ)) (ContinuousLinearMap.fst ℝ ℝ ℝ) 2
      refine cast ?_ this
      congr 2
      funext k
      simp only [dir]
      split_ifs <;> rfl
    have h2 : Jet dir (fun s : ℝ × ℝ => s.2) (χ, 0) (DualN.input (fun k => if k = 0 then 0 else 1) 0 2) := by
      have := Jet.input (v := dir) (s := ((χ, 0) : ℝ × ℝ)) (ContinuousLinearMap.snd ℝ ℝ ℝ) 2
      refine cast ?_ this
      congr 2
      funext k
      simp only [dir]
      split_ifs <;> rfl
    obtain ⟨-, -, h, -⟩ := C78_ufunc_at_zero h1 h2 rfl
    have hz : along (dir 1) (fun s : ℝ × ℝ => ufunc2 s.1 0) = fun _ => 0 := by
      funext y
      have hu : (fun s : ℝ × ℝ => ufunc2 s.1 0) = fun s : ℝ × ℝ => s.1 ^ 2 / 2 := by
        funext s; simp [ufunc2]
      have hf : HasFDerivAt (fun s : ℝ × ℝ => s.1 ^ 2 / 2) _ y :=
        (((hasFDerivAt_fst (𝕜 := ℝ) (p := y)).pow 2).mul_const (1 / 2 : ℝ)).congr_of_eventuallyEq (.of_eq (by funext s; simp; ring))
      rw [along, hu, hf.fderiv]
      simp [dir]
    have h2 := (carries_succ.1 h.jet).2
    rw [hz] at h2
    exact topO_zero h2
  · have h : (fun x : ℝ => deriv (fun a => ufunc2 x a) 0) = fun x => -x ^ 4 / 24 := by
      funext x
      rw [(C09_deriv_alpha x 0).2.2.1.deriv]
      simp [ufunc4, ufunc3]
      ring
    rw [h]
    exact (((hasDerivAt_pow 4 χ).neg).div_const 24).congr_deriv (by push_cast; ring)

/-- Second derivative of the orbital period. -/
theorem orb_period_second : DualN.top 2 (orb_period (DualN.input (fun _ => 1) 1 2) (DualN.const 2 1)) = 3 * Real.pi / 2 := by
  have h : Jet (fun _ => (1 : ℝ)) (fun a : ℝ => orb_period a 1) 1 (orb_period (DualN.input (fun _ => 1) 1 2) (DualN.const 2 1)) :=
    C78_orb_period (Jet.input (v := fun _ => (1 : ℝ)) (s := (1 : ℝ)) (ContinuousLinearMap.id ℝ ℝ) 2) (Jet.const 1) one_pos one_pos
  refine (h.top.trans (show _ = iteratedDeriv 2 (fun a : ℝ => orb_period a 1) 1 from rfl)).trans ?_
  have hv : ∀ a : ℝ, orb_period a 1 = 2 * Real.pi * Real.sqrt (a ^ 3) := fun a => by simp [orb_period]
  have d1 : ∀ a : ℝ, 0 < a → HasDerivAt (fun a : ℝ => orb_period a 1) (3 * Real.pi * Real.sqrt a) a := by
    intro a ha
    simp only [hv]
    refine (((hasDerivAt_pow 3 a).sqrt (by positivity)).const_mul (2 * Real.pi)).congr_deriv ?_
    have e1 : Real.sqrt (a ^ 3) = a * Real.sqrt a := by
      rw [show a ^ 3 = a ^ 2 * a by ring, Real.sqrt_mul (sq_nonneg a), Real.sqrt_sq ha.le]
    have e2 := Real.sq_sqrt ha.le
    have e3 : Real.sqrt a ≠ 0 := (Real.sqrt_pos.2 ha).ne'
    rw [e1]
    field_simp
    rw [e2]
    push_cast
    ring
  have e1 : deriv (fun a : ℝ => orb_period a 1) =ᶠ[𝓝 1] fun a => 3 * Real.pi * Real.sqrt a := by
    filter_upwards [eventually_gt_nhds (zero_lt_one' ℝ)] with a ha using (d1 a ha).deriv
  have : iteratedDeriv 2 (fun a : ℝ => orb_period a 1) 1 = deriv (deriv (fun a : ℝ => orb_period a 1)) 1 := by
    simp [iteratedDeriv_succ]
  rw [this, e1.deriv_eq, (((Real.hasDerivAt_sqrt one_ne_zero)).const_mul (3 * Real.pi)).deriv]
  simp
  ring
end Adx
