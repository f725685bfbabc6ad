import Verif.Props.C61
import Verif.Props.C62
import Verif.Props.C10
import Verif.Lemmas.KepReal

/-! # C63: derivatives through the Kepler solvers

Forward mode differentiates the Newton iterations that were made. -/

namespace Adx
open Spec

section elps
variable {M e : ℝ → ℝ} {s : ℝ} {M' e' : Dual ℝ}

theorem tracks_elpsStart (hM : Tracks M s M') (he : Tracks e s e') :
    Tracks (fun s => elpsStart (M s) (e s)) s (elpsStart M' e') :=
  (hM.add (he.mul hM.sin)).add (((he.pow 2).mul ((Tracks.nat 2).mul hM).sin).div (Tracks.nat 2) (by norm_num))

theorem tracks_newtonElps {E : ℝ → ℝ} {E' : Dual ℝ} (hM : Tracks M s M') (he : Tracks e s e') (hE : Tracks E s E')
    (h0 : dE (E s) (e s) ≠ 0) : Tracks (fun s => newtonElps (M s) (e s) (E s)) s (newtonElps M' e' E') := by
  obtain ⟨h1, h2, -, -⟩ := C62_kepler_equ hE he hM hE hE
  exact hE.sub (h1.div h2 h0)

/-- C63: the tangent of the `k`-th iterate is its derivative. -/
theorem C63_elps_iterate (hM : Tracks M s M') (he : Tracks e s e') (he0 : 0 ≤ e s) (he1 : e s < 1) (k : ℕ) :
    Tracks (fun s => (newtonElps (M s) (e s))^[k] (elpsStart (M s) (e s))) s
      ((newtonElps M' e')^[k] (elpsStart M' e')) := by
  induction k with
  | zero => exact tracks_elpsStart hM he
  | succ k ih =>
    simp only [Function.iterate_succ_apply']
    exact tracks_newtonElps hM he ih (by have := dE_ge he0 ((newtonElps (M s) (e s))^[k] (elpsStart (M s) (e s))); linarith)

/-- The propagation of tangents through one Newton step. With `σ` the step that is made, `d` the new tangent and
`T` the old one, `d = G(E) + σ (e sin E T - cos E e')/(1 - e cos E)`, where `G(E)` is the derivative of the root
if `E` is the root. -/
theorem newton_tangent {E : ℝ → ℝ} {E' : Dual ℝ} (hM : Tracks M s M') (he : Tracks e s e') (hE : Tracks E s E')
    (h0 : 1 - e s * Real.cos (E s) ≠ 0) :
    Dual.dot (newtonElps M' e' E') = (Dual.dot M' + Dual.dot e' * Real.sin (E s)) / (1 - e s * Real.cos (E s))
      + (E s - newtonElps (M s) (e s) (E s)) * (e s * Real.sin (E s) * Dual.dot E' - Real.cos (E s) * Dual.dot e')
        / (1 - e s * Real.cos (E s)) := by
  have h := tracks_newtonElps hM he hE (by rw [dE_eq]; exact h0)
  have hn : HasDerivAt (fun s => E s - e s * Real.sin (E s) - M s)
      (Dual.dot E' - (Dual.dot e' * Real.sin (E s) + e s * (Real.cos (E s) * Dual.dot E')) - Dual.dot M') s :=
    (hE.deriv.sub (he.deriv.mul hE.deriv.sin)).sub hM.deriv
  have hd : HasDerivAt (fun s => 1 - e s * Real.cos (E s))
      (-(Dual.dot e' * Real.cos (E s) + e s * (-Real.sin (E s) * Dual.dot E'))) s :=
    (he.deriv.mul hE.deriv.cos).const_sub 1
  have hq := hE.deriv.sub (hn.div hd h0)
  have hu := h.deriv.unique (hq.congr_of_eventuallyEq (.of_eq (by
    funext x; simp only [newtonElps, kep_elps_eq, dE_eq]; rfl)))
  rw [hu]
  simp only [newtonElps, kep_elps_eq, dE_eq]
  field_simp
  ring

/-- The exact derivative of the eccentric anomaly along a curve of arguments. -/
theorem elps_root_deriv {Es : ℝ → ℝ} (hM : Tracks M s M') (he : Tracks e s e') (he0 : 0 ≤ e s) (he1 : e s < 1)
    (hroot : ∀ᶠ x in nhds s, kepler_equ_elps (Es x) (e x) (M x) = 0) :
    HasDerivAt Es ((Dual.dot M' + Dual.dot e' * Real.sin (Es s)) / (1 - e s * Real.cos (Es s))) s := by
  have h0 := hroot.self_of_nhds
  simp only [kep_elps_eq] at hroot h0
  have hM' := hM.deriv
  have he' := he.deriv
  -- continuity
  have hcont : ContinuousAt Es s := by
    have hlt : ∀ᶠ x in nhds s, |e x| < (1 + e s) / 2 :=
      he'.continuousAt.abs.eventually_lt_const (by show |e s| < _; rw [abs_of_nonneg he0]; linarith)
    have hb : ∀ᶠ x in nhds s, ‖Es x - Es s‖ ≤ 2 / (1 - e s) * (|e x - e s| + |M x - M s|) := by
      filter_upwards [hlt, hroot] with x hx hx0
      have hs : |Real.sin (Es x) - Real.sin (Es s)| ≤ |Es x - Es s| := by
        simpa [Real.dist_eq] using Real.lipschitzWith_sin.dist_le_mul (Es x) (Es s)
      have hid : Es x - Es s = e x * (Real.sin (Es x) - Real.sin (Es s)) + (e x - e s) * Real.sin (Es s)
          + (M x - M s) := by linear_combination hx0 - h0
      have h1 : |Es x - Es s| ≤ |e x| * |Es x - Es s| + |e x - e s| + |M x - M s| := by
        calc |Es x - Es s| ≤ |e x * (Real.sin (Es x) - Real.sin (Es s))| + |(e x - e s) * Real.sin (Es s)|
              + |M x - M s| := by
              conv_lhs => rw [hid]
              exact abs_add_three _ _ _
          _ ≤ _ := by
              rw [abs_mul, abs_mul]
              have h2 := mul_le_mul_of_nonneg_left hs (abs_nonneg (e x))
              have h3 := mul_le_mul_of_nonneg_left (Real.abs_sin_le_one (Es s)) (abs_nonneg (e x - e s))
              linarith
      rw [Real.norm_eq_abs, div_mul_eq_mul_div, le_div_iff₀ (by linarith)]
      nlinarith [abs_nonneg (Es x - Es s)]
    refine tendsto_iff_norm_sub_tendsto_zero.2 (squeeze_zero' (.of_forall fun _ => norm_nonneg _) hb ?_)
    have h1 : Filter.Tendsto (fun x => |e x - e s|) (nhds s) (nhds 0) := by
      have := (he'.continuousAt.tendsto.sub_const (e s)).abs; simpa using this
    have h2 : Filter.Tendsto (fun x => |M x - M s|) (nhds s) (nhds 0) := by
      have := (hM'.continuousAt.tendsto.sub_const (M s)).abs; simpa using this
    simpa using (h1.add h2).const_mul (2 / (1 - e s))
  -- the slope
  set q : ℝ → ℝ := fun x => dslope Real.sin (Es s) (Es x) with hq
  have hqt : Filter.Tendsto (fun x => 1 - e x * q x) (nhds s) (nhds (1 - e s * Real.cos (Es s))) := by
    have hd : ContinuousAt (dslope Real.sin (Es s)) (Es s) :=
      continuousAt_dslope_same.2 Real.differentiableAt_sin
    have hc : ContinuousAt q s := ContinuousAt.comp (g := dslope Real.sin (Es s)) hd hcont
    have ht := (he'.continuousAt.tendsto.mul hc.tendsto).const_sub (1 : ℝ)
    have hv : q s = Real.cos (Es s) := by simp [hq, dslope_same]
    rw [hv] at ht
    exact ht
  have hne : 1 - e s * Real.cos (Es s) ≠ 0 := by
    have := dE_ge he0 (Es s); rw [dE_eq] at this; linarith
  rw [hasDerivAt_iff_tendsto_slope] at hM' he' ⊢
  refine Filter.Tendsto.congr' ?_ ((hM'.add (he'.mul_const (Real.sin (Es s)))).div
    (hqt.mono_left nhdsWithin_le_nhds) hne)
  filter_upwards [self_mem_nhdsWithin, hroot.filter_mono nhdsWithin_le_nhds,
    (hqt.mono_left nhdsWithin_le_nhds).eventually_ne hne] with x hx hx0 hd
  have hxs : x - s ≠ 0 := sub_ne_zero.2 hx
  have hsl : (Es x - Es s) * q x = Real.sin (Es x) - Real.sin (Es s) := by
    simpa using sub_smul_dslope Real.sin (Es s) (Es x)
  simp only [slope_def_field, Pi.div_apply]
  rw [div_eq_iff hd]
  field_simp
  linear_combination -(hx0 - h0) + e x * hsl

/-- The tests decide the number of iterations. -/
theorem elps_of_tests {α : Type} [Add α] [Sub α] [Neg α] [Mul α] [Div α] [Pow α ℕ] [NatCast α] [JFun α]
    {M e tol : α} {n k : ℕ} (hk : k ≤ n)
    (h1 : ∀ j < k, JFun.lt tol (JFun.abs ((newtonElps M e)^[j] (elpsStart M e)
        - prevOf (newtonElps M e) (elpsStart M e) (elpsStart M e + ℓ 2 * tol) j)) = true)
    (h2 : k < n → JFun.lt tol (JFun.abs ((newtonElps M e)^[k] (elpsStart M e)
        - prevOf (newtonElps M e) (elpsStart M e) (elpsStart M e + ℓ 2 * tol) k)) = false) :
    solve_kepler_elps M e tol n = some ((newtonElps M e)^[k] (elpsStart M e)) := by
  obtain ⟨k', hk', -, h, h1', h2'⟩ := C13_elps M e tol n
  rcases lt_trichotomy k' k with hlt | rfl | hlt
  · have := h2' (by omega); rw [h1 k' hlt] at this; cases this
  · exact h
  · have := h2 (by omega); rw [h1' k hlt] at this; cases this

/-- A constant in a traced computation. -/
abbrev cst (x : ℝ) : Dual ℝ := ⟨x, none⟩

/-- What `solve_kepler_elps` does to a traced argument: it makes the `k` iterations it makes on the values. -/
theorem elps_dual (hM : Tracks M s M') (he : Tracks e s e') (he0 : 0 ≤ e s) (he1 : e s < 1) (tol : ℝ) (n : ℕ) :
    ∃ k ≤ n, solve_kepler_elps M' e' (cst tol) n = some ((newtonElps M' e')^[k] (elpsStart M' e')) ∧
      elpsRun (M s) (e s) tol n = some (k, (newtonElps (M s) (e s))^[k] (elpsStart (M s) (e s)),
        prevOf (newtonElps (M s) (e s)) (elpsStart (M s) (e s)) (elpsStart (M s) (e s) + ℓ 2 * tol) k) ∧
      (∀ j < k, tol < |(newtonElps (M s) (e s))^[j] (elpsStart (M s) (e s))
        - prevOf (newtonElps (M s) (e s)) (elpsStart (M s) (e s)) (elpsStart (M s) (e s) + ℓ 2 * tol) j|) ∧
      (k < n → |(newtonElps (M s) (e s))^[k] (elpsStart (M s) (e s))
        - prevOf (newtonElps (M s) (e s)) (elpsStart (M s) (e s)) (elpsStart (M s) (e s) + ℓ 2 * tol) k| ≤ tol) := by
  obtain ⟨k, hk, hr, hs, h1, h2⟩ := C13_elps (M s) (e s) tol n
  obtain ⟨k', hk', hr', hs', -⟩ := C13_elps M' e' (cst tol) n
  have hv := (C61_solvers M' e' M' M' M' M' M' M' (cst tol) n).1
  rw [hr', hM.val, he.val, hr] at hv
  have hkk : k' = k := congrArg Prod.fst (Option.some.inj hv)
  subst hkk
  refine ⟨k', hk, hs', hr, fun j hj => ?_, fun h => ?_⟩
  · simpa using h1 j hj
  · simpa using h2 h

/-- C63: away from the arguments at which the number of iterations jumps, the tangent that comes out of
`solve_kepler_elps` is the derivative of `solve_kepler_elps`. -/
theorem C63_elps_derivative (hM : Tracks M s M') (he : Tracks e s e') (he0 : 0 ≤ e s) (he1 : e s < 1)
    {tol : ℝ} (htol : 0 < tol) (n : ℕ)
    (hjump : ∀ j < n, |(newtonElps (M s) (e s))^[j + 1] (elpsStart (M s) (e s))
      - (newtonElps (M s) (e s))^[j] (elpsStart (M s) (e s))| ≠ tol) :
    ∃ d, solve_kepler_elps M' e' (cst tol) n = some d ∧
      Tracks (fun x => (solve_kepler_elps (M x) (e x) tol n).getD 0) s d := by
  obtain ⟨k, hk, hd, -, h1, h2⟩ := elps_dual hM he he0 he1 tol n
  refine ⟨_, hd, (C63_elps_iterate hM he he0 he1 k).congr ?_⟩
  set D : ℕ → ℝ → ℝ := fun j x => |(newtonElps (M x) (e x))^[j] (elpsStart (M x) (e x))
        - prevOf (newtonElps (M x) (e x)) (elpsStart (M x) (e x)) (elpsStart (M x) (e x) + ℓ 2 * tol) j| with hD
  have hc : ∀ j, ContinuousAt (D j) s := by
    intro j
    have hx := (C63_elps_iterate hM he he0 he1 j).deriv.continuousAt
    rcases j with _ | j
    · exact (hx.sub ((tracks_elpsStart hM he).deriv.continuousAt.add continuousAt_const)).abs
    · exact (hx.sub (C63_elps_iterate hM he he0 he1 j).deriv.continuousAt).abs
  have hne : ∀ j ≤ n, D j s ≠ tol := by
    intro j hj
    rcases j with _ | j
    · have : D 0 s = 2 * tol := by
        simp only [hD, Function.iterate_zero, id_eq, prevOf]
        rw [sub_add_cancel_left, abs_neg, abs_of_pos (by simpa using htol)]; simp
      rw [this]; linarith
    · exact hjump j (by omega)
  have e1 : ∀ᶠ x in nhds s, ∀ j ∈ Finset.range k, tol < D j x :=
    (Finset.eventually_all _).2 fun j hj => (hc j).eventually_const_lt (h1 j (Finset.mem_range.1 hj))
  have e2 : ∀ᶠ x in nhds s, k < n → D k x < tol := by
    by_cases h : k < n
    · filter_upwards [(hc k).eventually_lt_const (lt_of_le_of_ne (h2 h) (hne k hk))] with x hx _ using hx
    · exact .of_forall fun x hx => absurd hx h
  filter_upwards [e1, e2] with x a b
  rw [elps_of_tests hk (fun j hj => by simpa [hD] using a j (Finset.mem_range.2 hj))
    (fun h => by simpa [hD] using (b h).le)]
  rfl

/-- The derivative of the root, as a function of the root, is Lipschitz. -/
theorem rootDeriv_lipschitz {e' M' e x y : ℝ} (he0 : 0 ≤ e) (he1 : e < 1) :
    |(M' + e' * Real.sin x) / (1 - e * Real.cos x) - (M' + e' * Real.sin y) / (1 - e * Real.cos y)|
      ≤ (|M'| + |e'|) * |x - y| / (1 - e) ^ 2 := by
  have hx := dE_ge he0 x
  have hy := dE_ge he0 y
  rw [dE_eq] at hx hy
  have hs : |Real.sin x - Real.sin y| ≤ |x - y| := by
    simpa [Real.dist_eq] using Real.lipschitzWith_sin.dist_le_mul x y
  have hc : |Real.cos x - Real.cos y| ≤ |x - y| := by
    simpa [Real.dist_eq] using Real.lipschitzWith_cos.dist_le_mul x y
  have hp : 0 < 1 - e := by linarith
  have hid : (M' + e' * Real.sin x) / (1 - e * Real.cos x) - (M' + e' * Real.sin y) / (1 - e * Real.cos y)
      = e' * (Real.sin x - Real.sin y) / (1 - e * Real.cos x)
        + (M' + e' * Real.sin y) * (e * (Real.cos x - Real.cos y))
          / ((1 - e * Real.cos x) * (1 - e * Real.cos y)) := by
    have h1 : 1 - e * Real.cos x ≠ 0 := by linarith
    have h2 : 1 - e * Real.cos y ≠ 0 := by linarith
    field_simp
    ring
  rw [hid]
  refine (abs_add_le _ _).trans ?_
  have b1 : |e' * (Real.sin x - Real.sin y) / (1 - e * Real.cos x)| ≤ |e'| * |x - y| / (1 - e) := by
    rw [abs_div, abs_mul, abs_of_pos (show 0 < 1 - e * Real.cos x by linarith)]
    gcongr
  have b2 : |(M' + e' * Real.sin y) * (e * (Real.cos x - Real.cos y)) / ((1 - e * Real.cos x) * (1 - e * Real.cos y))|
      ≤ (|M'| + |e'|) * (e * |x - y|) / ((1 - e) * (1 - e)) := by
    have hn : |M' + e' * Real.sin y| ≤ |M'| + |e'| := by
      refine (abs_add_le _ _).trans ?_
      rw [abs_mul]
      nlinarith [Real.abs_sin_le_one y, abs_nonneg e']
    rw [abs_div, abs_mul, abs_mul, abs_mul, abs_of_nonneg he0, abs_of_pos (show 0 < 1 - e * Real.cos x by linarith),
      abs_of_pos (show 0 < 1 - e * Real.cos y by linarith)]
    have h0x : 0 ≤ 1 - e * Real.cos x := by linarith
    gcongr
  have b3 : |e'| * |x - y| / (1 - e) + (|M'| + |e'|) * (e * |x - y|) / ((1 - e) * (1 - e))
      ≤ (|M'| + |e'|) * |x - y| / (1 - e) ^ 2 := by
    rw [div_add_div _ _ hp.ne' (by positivity), div_le_div_iff₀ (by positivity) (by positivity)]
    have : 0 ≤ |M'| * |x - y| := by positivity
    have h3 : 0 < (1 - e) ^ 4 := by positivity
    nlinarith [mul_nonneg this h3.le]
  linarith

/-- One Newton step from `E` with step `σ`: how far the new tangent is from the derivative of the root. -/
theorem newton_tangent_error {E : ℝ → ℝ} {E' : Dual ℝ} {r : ℝ} (hM : Tracks M s M') (he : Tracks e s e')
    (hE : Tracks E s E') (he0 : 0 ≤ e s) (he1 : e s < 1) (hr : kepler_equ_elps r (e s) (M s) = 0) :
    |Dual.dot (newtonElps M' e' E')
        - (Dual.dot M' + Dual.dot e' * Real.sin r) / (1 - e s * Real.cos r)|
      ≤ |E s - newtonElps (M s) (e s) (E s)|
        * ((e s * |Dual.dot E'| + |Dual.dot e'|) / (1 - e s)
          + (|Dual.dot M'| + |Dual.dot e'|) * (1 + e s) / (1 - e s) ^ 3) := by
  have hx := dE_ge he0 (E s)
  rw [dE_eq] at hx
  have hp : 0 < 1 - e s := by linarith
  rw [newton_tangent hM he hE (by linarith)]
  set σ := E s - newtonElps (M s) (e s) (E s) with hσ
  set T := Dual.dot E'
  set a := Dual.dot M'
  set b := Dual.dot e'
  have hroot : |E s - r| ≤ |σ| * (1 + e s) / (1 - e s) := by
    have hf : σ * (1 - e s * Real.cos (E s)) = E s - e s * Real.sin (E s) - M s := by
      simp only [hσ, newtonElps, kep_elps_eq, dE_eq]
      have : 1 - e s * Real.cos (E s) ≠ 0 := by linarith
      field_simp
      ring
    have hs : |Real.sin (E s) - Real.sin r| ≤ |E s - r| := by
      simpa [Real.dist_eq] using Real.lipschitzWith_sin.dist_le_mul (E s) r
    rw [kep_elps_eq] at hr
    have h1 : E s - r = σ * (1 - e s * Real.cos (E s)) + e s * (Real.sin (E s) - Real.sin r) := by
      rw [hf]; linear_combination -hr
    have h2 : |E s - r| ≤ |σ| * (1 + e s) + e s * |E s - r| := by
      conv_lhs => rw [h1]
      refine (abs_add_le _ _).trans ?_
      rw [abs_mul, abs_mul, abs_of_nonneg he0, abs_of_pos (show 0 < 1 - e s * Real.cos (E s) by linarith)]
      have := Real.neg_one_le_cos (E s)
      have h3 : 1 - e s * Real.cos (E s) ≤ 1 + e s := by nlinarith
      gcongr
    rw [le_div_iff₀ hp]
    linarith
  have h1 := rootDeriv_lipschitz (M' := a) (e' := b) (x := E s) (y := r) he0 he1
  have h2 : |σ * (e s * Real.sin (E s) * T - Real.cos (E s) * b) / (1 - e s * Real.cos (E s))|
      ≤ |σ| * ((e s * |T| + |b|) / (1 - e s)) := by
    rw [abs_div, abs_mul, abs_of_pos (show 0 < 1 - e s * Real.cos (E s) by linarith), mul_div_assoc]
    have h3 : |e s * Real.sin (E s) * T - Real.cos (E s) * b| ≤ e s * |T| + |b| := by
      refine (abs_sub _ _).trans ?_
      rw [abs_mul, abs_mul, abs_mul, abs_of_nonneg he0]
      have := Real.abs_sin_le_one (E s)
      have := Real.abs_cos_le_one (E s)
      have h4 : e s * |Real.sin (E s)| ≤ e s * 1 := by gcongr
      have h5 : e s * |Real.sin (E s)| * |T| ≤ e s * 1 * |T| := by gcongr
      nlinarith [abs_nonneg b]
    gcongr
  have h4 : (|a| + |b|) * |E s - r| / (1 - e s) ^ 2 ≤ |σ| * ((|a| + |b|) * (1 + e s) / (1 - e s) ^ 3) := by
    have : |σ| * ((|a| + |b|) * (1 + e s) / (1 - e s) ^ 3)
        = (|a| + |b|) * (|σ| * (1 + e s) / (1 - e s)) / (1 - e s) ^ 2 := by field_simp
    rw [this]
    gcongr
  calc _ = |((a + b * Real.sin (E s)) / (1 - e s * Real.cos (E s)) - (a + b * Real.sin r) / (1 - e s * Real.cos r))
        + σ * (e s * Real.sin (E s) * T - Real.cos (E s) * b) / (1 - e s * Real.cos (E s))| := by
        congr 1; ring
    _ ≤ _ := by
        refine (abs_add_le _ _).trans ?_
        rw [mul_add]
        linarith

/-- C63: when the iteration has stopped by its tolerance, the tangent that comes out is the derivative of the true
eccentric anomaly `Es` up to a multiple of the tolerance; `T` is the tangent of the last but one iterate. -/
theorem C63_elps_stopped {Es : ℝ → ℝ} (hM : Tracks M s M') (he : Tracks e s e') (he0 : 0 ≤ e s) (he1 : e s < 1)
    {tol : ℝ} (htol : 0 < tol) {n : ℕ} {c : ℕ × ℝ × ℝ}
    (hrun : elpsRun (M s) (e s) tol n = some c) (hstop : c.1 < n)
    (hroot : ∀ᶠ x in nhds s, kepler_equ_elps (Es x) (e x) (M x) = 0) :
    ∃ d D, solve_kepler_elps M' e' (cst tol) n = some d ∧ HasDerivAt Es D s ∧ 0 < c.1 ∧
      |Dual.dot d - D| ≤ tol * ((e s * |Dual.dot ((newtonElps M' e')^[c.1 - 1] (elpsStart M' e'))| + |Dual.dot e'|)
          / (1 - e s) + (|Dual.dot M'| + |Dual.dot e'|) * (1 + e s) / (1 - e s) ^ 3) := by
  obtain ⟨k, hk, hd, hr, h1, h2⟩ := elps_dual hM he he0 he1 tol n
  rw [hrun] at hr
  have hc : c.1 = k := congrArg Prod.fst (Option.some.inj hr)
  have hroots := hroot.self_of_nhds
  rw [hc] at hstop ⊢
  have h2 := h2 hstop
  rcases k with _ | k
  · exfalso
    simp only [Function.iterate_zero, id_eq, prevOf] at h2
    rw [sub_add_cancel_left, abs_neg, abs_of_pos (by simpa using htol)] at h2
    norm_num at h2
    linarith
  · refine ⟨_, _, hd, elps_root_deriv hM he he0 he1 hroot, Nat.succ_pos k, ?_⟩
    have hb := newton_tangent_error hM he (C63_elps_iterate hM he he0 he1 k) he0 he1 hroots
    simp only [Nat.add_sub_cancel]
    rw [Function.iterate_succ_apply']
    refine hb.trans ?_
    have hp : 0 < 1 - e s := by linarith
    have h3 : |(newtonElps (M s) (e s))^[k] (elpsStart (M s) (e s))
        - newtonElps (M s) (e s) ((newtonElps (M s) (e s))^[k] (elpsStart (M s) (e s)))| ≤ tol := by
      rw [abs_sub_comm, ← Function.iterate_succ_apply' (newtonElps (M s) (e s))]
      exact h2
    gcongr

/-- Size of a Newton step after a Newton step of size `σ`. -/
theorem newton_step_le {M e x : ℝ} (he0 : 0 ≤ e) (he1 : e < 1) :
    |newtonElps M e x - newtonElps M e (newtonElps M e x)| ≤ e / (2 * (1 - e)) * |x - newtonElps M e x| ^ 2 := by
  set y := newtonElps M e x with hy
  have hx := dE_ge he0 x
  have hy' := dE_ge he0 y
  rw [dE_eq] at hx hy'
  have hσ : (x - y) * (1 - e * Real.cos x) = x - e * Real.sin x - M := by
    simp only [hy, newtonElps, kep_elps_eq, dE_eq]
    have : 1 - e * Real.cos x ≠ 0 := by linarith
    field_simp
    ring
  have hf : y - e * Real.sin y - M = -(e * (Real.sin (x + (y - x)) - Real.sin x - (y - x) * Real.cos x)) := by
    rw [add_sub_cancel]; linear_combination -hσ
  have h1 : y - newtonElps M e y = (y - e * Real.sin y - M) / (1 - e * Real.cos y) := by
    simp only [newtonElps, kep_elps_eq, dE_eq]; ring
  rw [h1, hf, abs_div, abs_neg, abs_mul, abs_of_nonneg he0, abs_of_pos (show 0 < 1 - e * Real.cos y by linarith)]
  have h2 := sin_taylor x (y - x)
  have h3 : |x - y| ^ 2 = (y - x) ^ 2 := by rw [sq_abs]; ring
  rw [h3]
  have hp : 0 < 1 - e := by linarith
  calc _ ≤ e * ((y - x) ^ 2 / 2) / (1 - e) := by gcongr
    _ = _ := by field_simp

/-- The first Newton step from the starting value, for `e ≤ 1/2`. -/
theorem elps_first_tangent_step {M e : ℝ} (he0 : 0 ≤ e) (he1 : e ≤ 1 / 2) :
    |elpsStart M e - newtonElps M e (elpsStart M e)| ≤ 17 / 32 := by
  have hs : elpsStart M e = M + (e * Real.sin M + e ^ 2 * (Real.sin M * Real.cos M)) := by
    simp only [elpsStart, sin_real]
    norm_num
    rw [Real.sin_two_mul]; ring
  set δ := e * Real.sin M + e ^ 2 * (Real.sin M * Real.cos M) with hδ
  rw [hs]
  set x := M + δ with hx
  have hd := dE_ge he0 x
  rw [dE_eq] at hd
  have h1 : x - newtonElps M e x = (x - e * Real.sin x - M) / (1 - e * Real.cos x) := by
    simp only [newtonElps, kep_elps_eq, dE_eq]; ring
  have hf : x - e * Real.sin x - M = -(e * (e ^ 2 * (Real.sin M * Real.cos M ^ 2)
      + (Real.sin (M + δ) - Real.sin M - δ * Real.cos M))) := by
    rw [← hx]; rw [hx, hδ]; ring
  have s1 := Real.abs_sin_le_one M
  have c1 := Real.abs_cos_le_one M
  have hsc : |Real.sin M * Real.cos M| ≤ 1 := by
    rw [abs_mul]; exact mul_le_one₀ s1 (abs_nonneg _) c1
  have hsc2 : |Real.sin M * Real.cos M ^ 2| ≤ 1 := by
    rw [abs_mul, abs_pow]; exact mul_le_one₀ s1 (by positivity) (pow_le_one₀ (abs_nonneg _) c1)
  have hδ1 : |δ| ≤ 3 / 4 := by
    have : |δ| ≤ e * |Real.sin M| + e ^ 2 * |Real.sin M * Real.cos M| := by
      refine (abs_add_le _ _).trans ?_
      rw [abs_mul, abs_mul, abs_of_nonneg he0, abs_of_nonneg (by positivity : 0 ≤ e ^ 2)]
    nlinarith [mul_le_mul_of_nonneg_left s1 he0, mul_le_mul_of_nonneg_left hsc (sq_nonneg e)]
  have ht := sin_taylor M δ
  have hb : |e ^ 2 * (Real.sin M * Real.cos M ^ 2) + (Real.sin (M + δ) - Real.sin M - δ * Real.cos M)| ≤ 17 / 32 := by
    refine (abs_add_le _ _).trans ?_
    rw [abs_mul, abs_of_nonneg (by positivity : 0 ≤ e ^ 2)]
    have h2 : δ ^ 2 ≤ (3 / 4) ^ 2 := by rw [← sq_abs]; gcongr
    have h3 : e ^ 2 * |Real.sin M * Real.cos M ^ 2| ≤ (1 / 2) ^ 2 * 1 := by gcongr
    linarith
  rw [h1, hf, abs_div, abs_neg, abs_mul, abs_of_nonneg he0, abs_of_pos (show 0 < 1 - e * Real.cos x by linarith),
    div_le_iff₀ (by linarith)]
  nlinarith [abs_nonneg (e ^ 2 * (Real.sin M * Real.cos M ^ 2) + (Real.sin (M + δ) - Real.sin M - δ * Real.cos M))]

/-- Every Newton step is at most `17/32`, for `e ≤ 1/2`. -/
theorem elps_step_le {M e : ℝ} (he0 : 0 ≤ e) (he1 : e ≤ 1 / 2) (k : ℕ) :
    |(newtonElps M e)^[k] (elpsStart M e) - newtonElps M e ((newtonElps M e)^[k] (elpsStart M e))| ≤ 17 / 32 := by
  induction k with
  | zero => exact elps_first_tangent_step he0 he1
  | succ k ih =>
    rw [Function.iterate_succ_apply']
    refine (newton_step_le he0 (by linarith)).trans ?_
    have h1 : e / (2 * (1 - e)) ≤ 1 := by rw [div_le_one (by linarith)]; linarith
    have h2 : 0 ≤ e / (2 * (1 - e)) := div_nonneg he0 (by linarith)
    nlinarith [abs_nonneg ((newtonElps M e)^[k] (elpsStart M e) - newtonElps M e ((newtonElps M e)^[k] (elpsStart M e)))]

/-- The tangents of the iterates stay bounded, for `e ≤ 1/2`. -/
theorem elps_tangent_le (hM : Tracks M s M') (he : Tracks e s e') (he0 : 0 ≤ e s) (he1 : e s ≤ 1 / 2) (k : ℕ) :
    |Dual.dot ((newtonElps M' e')^[k] (elpsStart M' e'))| ≤ 7 * (|Dual.dot M'| + |Dual.dot e'|) := by
  have a0 := abs_nonneg (Dual.dot M')
  have b0 := abs_nonneg (Dual.dot e')
  induction k with
  | zero =>
    have h := (tracks_elpsStart hM he).deriv
    have hd : HasDerivAt (fun x => M x + e x * Real.sin (M x) + e x ^ 2 * Real.sin (2 * M x) / 2)
        (Dual.dot M' + (Dual.dot e' * Real.sin (M s) + e s * (Real.cos (M s) * Dual.dot M'))
          + ((2 * e s ^ 1 * Dual.dot e') * Real.sin (2 * M s)
            + e s ^ 2 * (Real.cos (2 * M s) * (2 * Dual.dot M'))) / 2) s := by
      have hm := hM.deriv
      have hee := he.deriv
      simpa using (hm.fun_add (hee.fun_mul hm.sin)).fun_add (((hee.fun_pow 2).fun_mul (hm.const_mul 2).sin).div_const 2)
    have hu := h.unique (hd.congr_of_eventuallyEq (.of_eq (by
      funext x; simp only [elpsStart, sin_real]; norm_num)))
    simp only [Function.iterate_zero, id_eq]
    rw [hu]
    have s1 := Real.abs_sin_le_one (M s)
    have c1 := Real.abs_cos_le_one (M s)
    have s2 := Real.abs_sin_le_one (2 * M s)
    have c2 := Real.abs_cos_le_one (2 * M s)
    have e1 : |Dual.dot e' * Real.sin (M s)| ≤ |Dual.dot e'| := by
      rw [abs_mul]; exact mul_le_of_le_one_right b0 s1
    have e2 : |Real.cos (M s) * Dual.dot M'| ≤ |Dual.dot M'| := by
      rw [abs_mul]; exact mul_le_of_le_one_left a0 c1
    have e3 : |Dual.dot e' * Real.sin (2 * M s)| ≤ |Dual.dot e'| := by
      rw [abs_mul]; exact mul_le_of_le_one_right b0 s2
    have e4 : |Real.cos (2 * M s) * Dual.dot M'| ≤ |Dual.dot M'| := by
      rw [abs_mul]; exact mul_le_of_le_one_left a0 c2
    have hid : Dual.dot M' + (Dual.dot e' * Real.sin (M s) + e s * (Real.cos (M s) * Dual.dot M'))
          + ((2 * e s ^ 1 * Dual.dot e') * Real.sin (2 * M s)
            + e s ^ 2 * (Real.cos (2 * M s) * (2 * Dual.dot M'))) / 2
        = (Dual.dot M' + Dual.dot e' * Real.sin (M s)) + (e s * (Real.cos (M s) * Dual.dot M')
          + e s * (Dual.dot e' * Real.sin (2 * M s))) + e s ^ 2 * (Real.cos (2 * M s) * Dual.dot M') := by ring
    rw [hid]
    have t1 := abs_add_three (Dual.dot M' + Dual.dot e' * Real.sin (M s)) (e s * (Real.cos (M s) * Dual.dot M')
          + e s * (Dual.dot e' * Real.sin (2 * M s))) (e s ^ 2 * (Real.cos (2 * M s) * Dual.dot M'))
    have t2 := abs_add_le (Dual.dot M') (Dual.dot e' * Real.sin (M s))
    have t3 := abs_add_le (e s * (Real.cos (M s) * Dual.dot M')) (e s * (Dual.dot e' * Real.sin (2 * M s)))
    rw [abs_mul, abs_mul (e s) (Dual.dot e' * _), abs_of_nonneg he0] at t3
    rw [abs_mul (e s ^ 2), abs_of_nonneg (by positivity : 0 ≤ e s ^ 2)] at t1
    have m1 : e s * |Real.cos (M s) * Dual.dot M'| ≤ 1 * |Dual.dot M'| := by gcongr; linarith
    have m2 : e s * |Dual.dot e' * Real.sin (2 * M s)| ≤ 1 * |Dual.dot e'| := by gcongr; linarith
    have m3 : e s ^ 2 * |Real.cos (2 * M s) * Dual.dot M'| ≤ 1 * |Dual.dot M'| := by gcongr; nlinarith
    linarith
  | succ k ih =>
    have hk := C63_elps_iterate hM he he0 (by linarith) k
    have hst := elps_step_le (M := M s) he0 he1 k
    rw [Function.iterate_succ_apply']
    set x := (newtonElps (M s) (e s))^[k] (elpsStart (M s) (e s)) with hx
    have hd := dE_ge he0 x
    rw [dE_eq] at hd
    rw [newton_tangent hM he hk (by rw [← hx]; linarith)]
    simp only [← hx]
    set T := Dual.dot ((newtonElps M' e')^[k] (elpsStart M' e'))
    set σ := x - newtonElps (M s) (e s) x
    set a := Dual.dot M'
    set b := Dual.dot e'
    set f := 1 - e s * Real.cos x
    have hfp : 0 < f := by linarith
    have s1 := Real.abs_sin_le_one x
    have c1 := Real.abs_cos_le_one x
    rw [← add_div, abs_div, abs_of_pos hfp, div_le_iff₀ hfp]
    have n1 : |a + b * Real.sin x| ≤ |a| + |b| := by
      refine (abs_add_le _ _).trans ?_
      rw [abs_mul]; nlinarith
    have n2 : |e s * Real.sin x * T - Real.cos x * b| ≤ e s * |T| + |b| := by
      refine (abs_sub _ _).trans ?_
      rw [abs_mul, abs_mul, abs_mul, abs_of_nonneg he0]
      have h5 : e s * |Real.sin x| * |T| ≤ e s * 1 * |T| := by gcongr
      nlinarith
    have n3 : |σ * (e s * Real.sin x * T - Real.cos x * b)| ≤ 17 / 32 * (e s * |T| + |b|) := by
      rw [abs_mul]; gcongr
    have n4 : e s * |T| ≤ e s * (7 * (|a| + |b|)) := by gcongr
    have n5 : 7 * (|a| + |b|) * (1 - e s) ≤ 7 * (|a| + |b|) * f := by gcongr
    have n6 := abs_add_le (a + b * Real.sin x) (σ * (e s * Real.sin x * T - Real.cos x * b))
    have n7 : e s * (|a| + |b|) ≤ 1 / 2 * (|a| + |b|) := by gcongr
    nlinarith

/-- C63: for `e ≤ 1/2` the tangent that comes out of an iteration stopped by its tolerance is the derivative of the
eccentric anomaly up to `21 tol` times the size of the tangents that went in. -/
theorem C63_elps_accurate_partial {Es : ℝ → ℝ} (hM : Tracks M s M') (he : Tracks e s e') (he0 : 0 ≤ e s)
    (he1 : e s ≤ 1 / 2) {tol : ℝ} (htol : 0 < tol) {n : ℕ} {c : ℕ × ℝ × ℝ}
    (hrun : elpsRun (M s) (e s) tol n = some c) (hstop : c.1 < n)
    (hroot : ∀ᶠ x in nhds s, kepler_equ_elps (Es x) (e x) (M x) = 0) :
    ∃ d D, solve_kepler_elps M' e' (cst tol) n = some d ∧ HasDerivAt Es D s ∧
      |Dual.dot d - D| ≤ 21 * tol * (|Dual.dot M'| + |Dual.dot e'|) := by
  obtain ⟨d, D, h1, h2, -, h3⟩ := C63_elps_stopped hM he he0 (by linarith) htol hrun hstop hroot
  refine ⟨d, D, h1, h2, h3.trans ?_⟩
  have hT := elps_tangent_le hM he he0 he1 (c.1 - 1)
  set T := Dual.dot ((newtonElps M' e')^[c.1 - 1] (elpsStart M' e'))
  have a0 := abs_nonneg (Dual.dot M')
  have b0 := abs_nonneg (Dual.dot e')
  set a := |Dual.dot M'|
  set b := |Dual.dot e'|
  have hp : 0 < 1 - e s := by linarith
  have k1 : (e s * |T| + b) / (1 - e s) ≤ 9 * (a + b) := by
    rw [div_le_iff₀ hp]
    have : e s * |T| ≤ e s * (7 * (a + b)) := by gcongr
    nlinarith
  have k2 : (a + b) * (1 + e s) / (1 - e s) ^ 3 ≤ 12 * (a + b) := by
    rw [div_le_iff₀ (by positivity)]
    have h8 : (1 / 2 : ℝ) ^ 3 ≤ (1 - e s) ^ 3 := by gcongr; linarith
    have h9 : (1 + e s) ≤ 12 * (1 - e s) ^ 3 := by linarith
    nlinarith
  nlinarith

/-- For `e ≤ 1/2` the fifth step is below `1e-6`. -/
theorem elps_fifth_step {M e : ℝ} (he0 : 0 ≤ e) (he1 : e ≤ 1 / 2) :
    |(newtonElps M e)^[4] (elpsStart M e) - (newtonElps M e)^[5] (elpsStart M e)| ≤ 1 / 10 ^ 6 := by
  have hq : ∀ x, |newtonElps M e x - newtonElps M e (newtonElps M e x)| ≤ |x - newtonElps M e x| ^ 2 / 2 := by
    intro x
    refine (newton_step_le he0 (by linarith)).trans ?_
    have h1 : e / (2 * (1 - e)) ≤ 1 / 2 := by rw [div_le_div_iff₀ (by linarith) (by norm_num)]; linarith
    have := mul_le_mul_of_nonneg_right h1 (sq_nonneg |x - newtonElps M e x|)
    linarith
  have hb : ∀ x B, |x - newtonElps M e x| ≤ B → |newtonElps M e x - newtonElps M e (newtonElps M e x)| ≤ B ^ 2 / 2 := by
    intro x B h
    refine (hq x).trans ?_
    gcongr
  have h0 := elps_first_tangent_step (M := M) he0 he1
  have h4 := hb _ _ (hb _ _ (hb _ _ (hb _ _ h0)))
  simp only [Function.iterate_succ, Function.iterate_zero, Function.comp_apply, id_eq]
  refine h4.trans ?_
  norm_num

/-- C63: with the default tolerance and iteration limit and `e ≤ 1/2`, for every mean anomaly and all curves of
arguments, forward mode returns the derivative of the eccentric anomaly up to `2.1e-5` times the size of the
tangents that went in. -/
theorem C63_elps_default_partial {Es : ℝ → ℝ} (hM : Tracks M s M') (he : Tracks e s e') (he0 : 0 ≤ e s)
    (he1 : e s ≤ 1 / 2) (hroot : ∀ᶠ x in nhds s, kepler_equ_elps (Es x) (e x) (M x) = 0) :
    ∃ d D, solve_kepler_elps M' e' = some d ∧ HasDerivAt Es D s ∧
      |Dual.dot d - D| ≤ 21 / 10 ^ 6 * (|Dual.dot M'| + |Dual.dot e'|) := by
  obtain ⟨k, hk, -, hr, h1, -⟩ := elps_dual hM he he0 (by linarith) defaultTol 20
  have htol : (defaultTol : ℝ) = 1 / 10 ^ 6 := by simp only [defaultTol]; norm_num
  have hk5 : k ≤ 5 := by
    by_contra hcon
    have := h1 5 (by omega)
    have h5 := elps_fifth_step (M := M s) he0 he1
    rw [abs_sub_comm, ← htol] at h5
    exact absurd this (not_lt.2 h5)
  obtain ⟨d, D, h2, h3, h4⟩ := C63_elps_accurate_partial hM he he0 he1
    (by rw [htol]; norm_num : (0 : ℝ) < defaultTol) hr (show k < 20 by omega) hroot
  exact ⟨d, D, h2, h3, h4.trans (le_of_eq (by rw [htol]; ring))⟩

/-- A case meeting the hypotheses: `e = 1/4`, differentiated with respect to the mean anomaly at any `M`. -/
example (M : ℝ) : ∃ Es : ℝ → ℝ, (∀ x, kepler_equ_elps (Es x) (1 / 4) x = 0) ∧
    ∃ d D, solve_kepler_elps (⟨M, some 1⟩ : Dual ℝ) (cst (1 / 4)) = some d ∧ HasDerivAt Es D M ∧
      |Dual.dot d - D| ≤ 21 / 10 ^ 6 := by
  have h : ∀ x : ℝ, ∃ E : ℝ, kepler_equ_elps E (1 / 4) x = 0 := fun x =>
    (existsUnique_root (show (0 : ℝ) < 1 - 1 / 4 by norm_num) (fun E => hasDerivAt_elps E (1 / 4) x)
      (fun E => dE_ge (by norm_num) E) 0).exists
  choose Es hEs using h
  obtain ⟨d, D, h1, h2, h3⟩ := C63_elps_default_partial (Es := Es) (Tracks.var M) (Tracks.const (1 / 4)) (by norm_num)
    (by norm_num) (.of_forall hEs)
  exact ⟨Es, hEs, d, D, h1, h2, h3.trans (by norm_num [Dual.dot])⟩

end elps
end Adx
