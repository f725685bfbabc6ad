import Verif.Props.C63
import Verif.Props.C21

/-! # C63, continued: hyperbolic and universal solvers, and `kepler`

Both loops stop on the size of the residual, before the first step if the starting value is good enough; the
tangent that comes out is then the derivative of the starting formula. -/

namespace Adx
open Spec V3

section hypb
variable {N e : ℝ → ℝ} {s : ℝ} {N' e' : Dual ℝ}

theorem tracks_hypbStart (hN : Tracks N s N') (he : Tracks e s e') (he0 : e s ≠ 0) :
    Tracks (fun s => hypbStart (N s) (e s)) s (hypbStart N' e') := by
  have hq : Tracks (fun s => ((2 : ℕ) : ℝ) * N s / e s) s (ℓ 2 * N' / e') := ((Tracks.nat 2).mul hN).div he he0
  have hp : 0 < (((2 : ℕ) : ℝ) * N s / e s) ^ 2 + ((1 : ℕ) : ℝ) := by positivity
  refine (hq.add (((hq.pow 2).add (Tracks.nat 1)).sqrt hp)).log ?_
  set x := ((2 : ℕ) : ℝ) * N s / e s
  have h1 : |x| < Real.sqrt (x ^ 2 + ((1 : ℕ) : ℝ)) := by
    rw [← Real.sqrt_sq_eq_abs]; exact Real.sqrt_lt_sqrt (sq_nonneg x) (by norm_num)
  have := (abs_lt.1 h1).1
  linarith

theorem tracks_newtonHypb {H : ℝ → ℝ} {H' : Dual ℝ} (hN : Tracks N s N') (he : Tracks e s e') (hH : Tracks H s H')
    (h0 : dH (H s) (e s) ≠ 0) : Tracks (fun s => newtonHypb (N s) (e s) (H s)) s (newtonHypb N' e' H') := by
  obtain ⟨-, -, h1, h2⟩ := C62_kepler_equ hH he hN hH hN
  exact hH.sub (h1.div h2 h0)

/-- C63: the tangent of the `k`-th hyperbolic iterate is its derivative. -/
theorem C63_hypb_iterate (hN : Tracks N s N') (he : Tracks e s e') (he1 : 1 < e s) (k : ℕ) :
    Tracks (fun s => (newtonHypb (N s) (e s))^[k] (hypbStart (N s) (e s))) s
      ((newtonHypb N' e')^[k] (hypbStart N' e')) := by
  induction k with
  | zero => exact tracks_hypbStart hN he (by linarith)
  | succ k ih =>
    simp only [Function.iterate_succ_apply']
    exact tracks_newtonHypb hN he ih
      (by have := dH_ge (by linarith : 0 ≤ e s) ((newtonHypb (N s) (e s))^[k] (hypbStart (N s) (e s))); linarith)

theorem hypb_of_tests {α : Type} [Add α] [Sub α] [Neg α] [Mul α] [Div α] [Pow α ℕ] [NatCast α] [JFun α]
    {N e tol : α} {n k : ℕ} (hk : k ≤ n)
    (h1 : ∀ j < k, JFun.lt tol (JFun.abs (kepler_equ_hypb ((newtonHypb N e)^[j] (hypbStart N e)) e N)) = true)
    (h2 : k < n → JFun.lt tol (JFun.abs (kepler_equ_hypb ((newtonHypb N e)^[k] (hypbStart N e)) e N)) = false) :
    solve_kepler_hypb N e tol n = some ((newtonHypb N e)^[k] (hypbStart N e)) := by
  obtain ⟨k', hk', -, h, h1', h2'⟩ := C13_hypb N e tol n
  rcases lt_trichotomy k' k with hlt | rfl | hlt
  · have := h2' (by omega); rw [h1 k' hlt] at this; cases this
  · exact h
  · have := h2 (by omega); rw [h1' k hlt] at this; cases this

/-- What `solve_kepler_hypb` does to a traced argument. -/
theorem hypb_dual (hN : N'.val = N s) (he : e'.val = e s) (tol : ℝ) (n : ℕ) :
    ∃ k ≤ n, solve_kepler_hypb N' e' (cst tol) n = some ((newtonHypb N' e')^[k] (hypbStart N' e')) ∧
      (∀ j < k, tol < |kepler_equ_hypb ((newtonHypb (N s) (e s))^[j] (hypbStart (N s) (e s))) (e s) (N s)|) ∧
      (k < n → |kepler_equ_hypb ((newtonHypb (N s) (e s))^[k] (hypbStart (N s) (e s))) (e s) (N s)| ≤ tol) := by
  obtain ⟨k, hk, hr, hs, h1, h2⟩ := C13_hypb (N s) (e s) tol n
  obtain ⟨k', hk', hr', hs', -⟩ := C13_hypb N' e' (cst tol) n
  have hv := (C61_solvers N' e' N' N' N' N' N' N' (cst tol) n).2.2.1
  rw [hr', hN, he, hr] at hv
  have hkk : k' = k := congrArg Prod.fst (Option.some.inj hv)
  subst hkk
  refine ⟨k', hk, hs', fun j hj => ?_, fun h => ?_⟩
  · simpa using h1 j hj
  · simpa using h2 h

/-- C63: away from the arguments at which the number of iterations jumps, the tangent that comes out of
`solve_kepler_hypb` is the derivative of `solve_kepler_hypb`. -/
theorem C63_hypb_derivative (hN : Tracks N s N') (he : Tracks e s e') (he1 : 1 < e s) (tol : ℝ) (n : ℕ)
    (hjump : ∀ j < n, |kepler_equ_hypb ((newtonHypb (N s) (e s))^[j] (hypbStart (N s) (e s))) (e s) (N s)| ≠ tol) :
    ∃ d, solve_kepler_hypb N' e' (cst tol) n = some d ∧
      Tracks (fun x => (solve_kepler_hypb (N x) (e x) tol n).getD 0) s d := by
  obtain ⟨k, hk, hd, h1, h2⟩ := hypb_dual hN.val he.val tol n
  refine ⟨_, hd, (C63_hypb_iterate hN he he1 k).congr ?_⟩
  set D : ℕ → ℝ → ℝ := fun j x =>
    |kepler_equ_hypb ((newtonHypb (N x) (e x))^[j] (hypbStart (N x) (e x))) (e x) (N x)| with hD
  have hc : ∀ j, ContinuousAt (D j) s := by
    intro j
    have hx := C63_hypb_iterate hN he he1 j
    exact (C62_kepler_equ hx he hN hx hN).2.2.1.deriv.continuousAt.abs
  have e1 : ∀ᶠ x in nhds s, ∀ j ∈ Finset.range k, tol < D j x :=
    (Finset.eventually_all _).2 fun j hj => (hc j).eventually_const_lt (h1 j (Finset.mem_range.1 hj))
  have e2 : ∀ᶠ x in nhds s, k < n → D k x < tol := by
    by_cases h : k < n
    · filter_upwards [(hc k).eventually_lt_const (lt_of_le_of_ne (h2 h) (hjump k h))] with x hx _ using hx
    · exact .of_forall fun x hx => absurd hx h
  filter_upwards [e1, e2] with x a b
  rw [hypb_of_tests hk (fun j hj => by simpa [hD] using a j (Finset.mem_range.2 hj))
    (fun h => by simpa [hD] using (b h).le)]
  rfl

/-- The derivative of the hyperbolic anomaly with respect to the mean anomaly. -/
theorem hypb_root_deriv {e : ℝ} (he : 1 < e) {Hs : ℝ → ℝ} {N0 : ℝ}
    (h : ∀ᶠ N in nhds N0, kepler_equ_hypb (Hs N) e N = 0) : HasDerivAt Hs (1 / (e * Real.cosh (Hs N0) - 1)) N0 := by
  simp only [kep_hypb_eq] at h
  have h0 := h.self_of_nhds
  have hd : ∀ x, HasDerivAt (fun H => e * Real.sinh H - H) (e * Real.cosh x - 1) x := fun x =>
    ((Real.hasDerivAt_sinh x).const_mul e).sub (hasDerivAt_id' x)
  have hge : ∀ x, e - 1 ≤ e * Real.cosh x - 1 := fun x => by nlinarith [Real.one_le_cosh x]
  have hcont : ContinuousAt Hs N0 := by
    have hb : ∀ᶠ N in nhds N0, ‖Hs N - Hs N0‖ ≤ |N - N0| / (e - 1) := by
      filter_upwards [h] with N hN
      have := abs_sub_le_of_slope (show 0 < e - 1 by linarith) hd hge (Hs N) (Hs N0)
      rwa [show e * Real.sinh (Hs N) - Hs N - (e * Real.sinh (Hs N0) - Hs N0) = N - N0 by linarith] at this
    refine tendsto_iff_norm_sub_tendsto_zero.2 (squeeze_zero' (.of_forall fun _ => norm_nonneg _) hb ?_)
    have : Filter.Tendsto (fun N : ℝ => |N - N0| / (e - 1)) (nhds N0) (nhds (|N0 - N0| / (e - 1))) :=
      Continuous.tendsto (by fun_prop) N0
    simpa using this
  have hp : e * Real.cosh (Hs N0) - 1 ≠ 0 := by have := hge (Hs N0); linarith
  have := (hd (Hs N0)).of_local_left_inverse hcont hp (by filter_upwards [h] with N hN; linarith)
  rwa [one_div]

/-- C63, refuted for the hyperbolic solver: at mean anomaly 0 the starting value is the root, no step is made, and
the derivative of the returned anomaly with respect to the mean anomaly comes out as `2/e`. The derivative of the
anomaly is `1/(e - 1)`; the two agree for `e = 2` only. This holds for every tolerance and iteration limit. -/
theorem C63_hypb_refuted {e tol : ℝ} (he : 1 < e) (htol : 0 ≤ tol) (n : ℕ) :
    ∃ d, solve_kepler_hypb (⟨0, some 1⟩ : Dual ℝ) (cst e) (cst tol) n = some d ∧ d.val = 0 ∧
      Dual.dot d = 2 / e ∧
      (∀ Hs : ℝ → ℝ, (∀ᶠ N in nhds 0, kepler_equ_hypb (Hs N) e N = 0) → HasDerivAt Hs (1 / (e - 1)) 0) ∧
      (e ≠ 2 → Dual.dot d ≠ 1 / (e - 1)) := by
  have hN := Tracks.var 0
  have hc : Tracks (fun _ => e) (0 : ℝ) (cst e) := Tracks.const e
  obtain ⟨k, hk, hd, h1, -⟩ := hypb_dual (s := (0 : ℝ)) (N := fun s => s) (e := fun _ => e) hN.val hc.val tol n
  have hst : hypbStart (0 : ℝ) e = 0 := by simp [hypbStart]
  have hk0 : k = 0 := by
    rcases k with _ | k
    · rfl
    · have := h1 0 (by omega)
      simp only [Function.iterate_zero, id_eq, hst, kep_hypb_eq] at this
      simp at this
      linarith
  subst hk0
  have ht := tracks_hypbStart hN hc (by linarith)
  have hdot : Dual.dot (hypbStart (⟨0, some 1⟩ : Dual ℝ) (cst e)) = 2 / e := by
    have h1 : HasDerivAt (fun x : ℝ => 2 * x / e) (2 / e) 0 := by
      simpa using ((hasDerivAt_id (0 : ℝ)).const_mul 2).div_const e
    have h2 : HasDerivAt (fun x : ℝ => Real.sqrt ((2 * x / e) ^ 2 + 1)) 0 0 := by
      have := ((h1.fun_pow 2).add_const 1).sqrt (by norm_num)
      simpa using this
    have h3 := (h1.fun_add h2).log (by norm_num)
    have h4 := ht.deriv.unique (h3.congr_of_eventuallyEq (.of_eq (by
      funext x; simp only [hypbStart, log_real, sqrt_real]; norm_num)))
    rw [h4]; norm_num
  refine ⟨_, hd, by rw [Function.iterate_zero, id_eq, ht.val, hst], by rw [Function.iterate_zero, id_eq, hdot],
    fun Hs hHs => ?_, fun h2 => ?_⟩
  · have h0 := hHs.self_of_nhds
    have hz : Hs 0 = 0 := by
      rw [kep_hypb_eq] at h0
      have := abs_sub_le_of_slope (f := fun H => e * Real.sinh H - H) (show 0 < e - 1 by linarith)
        (fun x => ((Real.hasDerivAt_sinh x).const_mul e).sub (hasDerivAt_id' x))
        (fun x => by nlinarith [Real.one_le_cosh x]) (Hs 0) 0
      simp only [Real.sinh_zero] at this
      rw [show e * Real.sinh (Hs 0) - Hs 0 - (e * 0 - 0) = 0 by linarith] at this
      simpa using this
    have := hypb_root_deriv he hHs
    rw [hz] at this
    simpa using this
  · rw [Function.iterate_zero, id_eq, hdot]
    intro h
    rw [div_eq_div_iff (by linarith) (by linarith)] at h
    exact h2 (by linarith)

/-- The statement is not about nothing: `e = 3/2` gives `4/3` instead of `2`. -/
example : ∃ d, solve_kepler_hypb (⟨0, some 1⟩ : Dual ℝ) (cst (3 / 2)) (cst (1 / 10 ^ 6)) 50 = some d ∧
    Dual.dot d = 4 / 3 := by
  obtain ⟨d, h1, -, h2, -⟩ := C63_hypb_refuted (e := 3 / 2) (tol := 1 / 10 ^ 6) (by norm_num) (by norm_num) 50
  exact ⟨d, h1, by rw [h2]; norm_num⟩

end hypb

section uni
variable {T A B S m : ℝ → ℝ} {s : ℝ} {T' A' B' S' m' : Dual ℝ}

theorem tracks_uniStart (hT : Tracks T s T') (hA : Tracks A s A') (hm : Tracks m s m') (hA0 : A s ≠ 0) (hm0 : 0 < m s) :
    Tracks (fun s => uniStart (T s) (A s) (m s)) s (uniStart T' A' m') := ((hm.sqrt hm0).mul (hA.abs hA0)).mul hT

/-- C63: the tangent of the `k`-th iterate of the universal solver is its derivative. -/
theorem C63_uni_iterate (hT : Tracks T s T') (hA : Tracks A s A') (hB : Tracks B s B') (hS : Tracks S s S')
    (hm : Tracks m s m') (hA0 : A s ≠ 0) (hm0 : 0 < m s) (hpos : ∀ x, 0 < radU (A s) (B s) (S s) x) (k : ℕ) :
    Tracks (fun s => (newtonUni (T s) (A s) (B s) (S s) (m s))^[k] (uniStart (T s) (A s) (m s))) s
      ((newtonUni T' A' B' S' m')^[k] (uniStart T' A' m')) := by
  induction k with
  | zero => exact tracks_uniStart hT hA hm hA0 hm0
  | succ k ih =>
    simp only [Function.iterate_succ_apply']
    obtain ⟨h1, h2⟩ := C62_kepler_equ_uni ih hA hB hS hT hm hA0 hm0
    exact ih.sub (h1.div h2 (by rw [dchi_eq]; exact (hpos _).ne'))

theorem uni_of_tests {α : Type} [Add α] [Sub α] [Neg α] [Mul α] [Div α] [Pow α ℕ] [NatCast α] [JFun α]
    {t al r0 s0 mu tol : α} {n k : ℕ} (hk : k ≤ n)
    (h1 : ∀ j < k, JFun.lt tol (JFun.abs (kepler_equ_uni ((newtonUni t al r0 s0 mu)^[j] (uniStart t al mu))
      al r0 s0 t mu)) = true)
    (h2 : k < n → JFun.lt tol (JFun.abs (kepler_equ_uni ((newtonUni t al r0 s0 mu)^[k] (uniStart t al mu))
      al r0 s0 t mu)) = false) :
    solve_kepler_uni t al r0 s0 mu tol n = some ((newtonUni t al r0 s0 mu)^[k] (uniStart t al mu)) := by
  obtain ⟨k', hk', -, h, h1', h2'⟩ := C13_uni t al r0 s0 mu tol n
  rcases lt_trichotomy k' k with hlt | rfl | hlt
  · have := h2' (by omega); rw [h1 k' hlt] at this; cases this
  · exact h
  · have := h2 (by omega); rw [h1' k hlt] at this; cases this

/-- What `solve_kepler_uni` does to traced arguments. -/
theorem uni_dual (t al r0 s0 mu : Dual ℝ) (tol : ℝ) (n : ℕ) :
    ∃ k ≤ n, solve_kepler_uni t al r0 s0 mu (cst tol) n = some ((newtonUni t al r0 s0 mu)^[k] (uniStart t al mu)) ∧
      (∀ j < k, tol < |kepler_equ_uni ((newtonUni t.val al.val r0.val s0.val mu.val)^[j]
        (uniStart t.val al.val mu.val)) al.val r0.val s0.val t.val mu.val|) ∧
      (k < n → |kepler_equ_uni ((newtonUni t.val al.val r0.val s0.val mu.val)^[k]
        (uniStart t.val al.val mu.val)) al.val r0.val s0.val t.val mu.val| ≤ tol) := by
  obtain ⟨k, hk, hr, hs, h1, h2⟩ := C13_uni t.val al.val r0.val s0.val mu.val tol n
  obtain ⟨k', hk', hr', hs', -⟩ := C13_uni t al r0 s0 mu (cst tol) n
  have hv := (C61_solvers t t t t al r0 s0 mu (cst tol) n).2.2.2.2.1
  rw [hr', hr] at hv
  have hkk : k' = k := congrArg Prod.fst (Option.some.inj hv)
  subst hkk
  refine ⟨k', hk, hs', fun j hj => ?_, fun h => ?_⟩
  · simpa using h1 j hj
  · simpa using h2 h

/-- C63: away from the arguments at which the number of iterations jumps, the tangent that comes out of
`solve_kepler_uni` is the derivative of `solve_kepler_uni`. -/
theorem C63_uni_derivative (hT : Tracks T s T') (hA : Tracks A s A') (hB : Tracks B s B') (hS : Tracks S s S')
    (hm : Tracks m s m') (hA0 : A s ≠ 0) (hm0 : 0 < m s) (hpos : ∀ x, 0 < radU (A s) (B s) (S s) x) (tol : ℝ) (n : ℕ)
    (hjump : ∀ j < n, |kepler_equ_uni ((newtonUni (T s) (A s) (B s) (S s) (m s))^[j] (uniStart (T s) (A s) (m s)))
      (A s) (B s) (S s) (T s) (m s)| ≠ tol) :
    ∃ d, solve_kepler_uni T' A' B' S' m' (cst tol) n = some d ∧
      Tracks (fun x => (solve_kepler_uni (T x) (A x) (B x) (S x) (m x) tol n).getD 0) s d := by
  obtain ⟨k, hk, hd, h1, h2⟩ := uni_dual T' A' B' S' m' tol n
  rw [hT.val, hA.val, hB.val, hS.val, hm.val] at h1 h2
  refine ⟨_, hd, (C63_uni_iterate hT hA hB hS hm hA0 hm0 hpos k).congr ?_⟩
  set D : ℕ → ℝ → ℝ := fun j x => |kepler_equ_uni ((newtonUni (T x) (A x) (B x) (S x) (m x))^[j]
    (uniStart (T x) (A x) (m x))) (A x) (B x) (S x) (T x) (m x)| with hD
  have hc : ∀ j, ContinuousAt (D j) s := by
    intro j
    have hx := C63_uni_iterate hT hA hB hS hm hA0 hm0 hpos j
    exact (C62_kepler_equ_uni hx hA hB hS hT hm hA0 hm0).1.deriv.continuousAt.abs
  have e1 : ∀ᶠ x in nhds s, ∀ j ∈ Finset.range k, tol < D j x :=
    (Finset.eventually_all _).2 fun j hj => (hc j).eventually_const_lt (h1 j (Finset.mem_range.1 hj))
  have e2 : ∀ᶠ x in nhds s, k < n → D k x < tol := by
    by_cases h : k < n
    · filter_upwards [(hc k).eventually_lt_const (lt_of_le_of_ne (h2 h) (hjump k h))] with x hx _ using hx
    · exact .of_forall fun x hx => absurd hx h
  filter_upwards [e1, e2] with x a b
  rw [uni_of_tests hk (fun j hj => by simpa [hD] using a j (Finset.mem_range.2 hj))
    (fun h => by simpa [hD] using (b h).le)]
  rfl

/-- The propagation of the time tangent through one Newton step: with `σ` the step that is made,
`d = (sqrt(mu) dt + σ r'(χ) T)/r(χ)`. -/
theorem C63_uni_tangent {X : ℝ → ℝ} {X' : Dual ℝ} {al r0 s0 mu : ℝ} (hT : Tracks T s T') (hX : Tracks X s X')
    (ha : al ≠ 0) (hmu : 0 < mu) (hpos : radU al r0 s0 (X s) ≠ 0) :
    Dual.dot (newtonUni T' (cst al) (cst r0) (cst s0) (cst mu) X')
      = (Real.sqrt mu * Dual.dot T' + (X s - newtonUni (T s) al r0 s0 mu (X s)) * sigU al r0 s0 (X s) * Dual.dot X')
        / radU al r0 s0 (X s) := by
  have h := C62_kepler_equ_uni hX (Tracks.const al) (Tracks.const r0) (Tracks.const s0) hT (Tracks.const mu) ha hmu
  have ht : Tracks (fun x => newtonUni (T x) al r0 s0 mu (X x)) s (newtonUni T' (cst al) (cst r0) (cst s0) (cst mu) X') :=
    hX.sub (h.1.div h.2 (by rw [dchi_eq]; exact hpos))
  have hn : HasDerivAt (fun x => kepU al r0 s0 (X x) - Real.sqrt mu * T x)
      (radU al r0 s0 (X s) * Dual.dot X' - Real.sqrt mu * Dual.dot T') s :=
    ((hasDerivAt_kepU al r0 s0 (X s)).comp s hX.deriv).sub (hT.deriv.const_mul _)
  have hd : HasDerivAt (fun x => radU al r0 s0 (X x)) (sigU al r0 s0 (X s) * Dual.dot X') s :=
    (hasDerivAt_radU al r0 s0 (X s)).comp s hX.deriv
  have hq := hX.deriv.sub (hn.div hd hpos)
  have hu := ht.deriv.unique (hq.congr_of_eventuallyEq (.of_eq (by
    funext x; simp only [newtonUni, kep_uni_eq, dchi_eq]; rfl)))
  rw [hu]
  simp only [newtonUni, kep_uni_eq, dchi_eq]
  field_simp
  ring

/-- C63, refuted for the universal solver: at time 0 the starting value is the root, no step is made, and the
derivative of the returned variable with respect to time comes out as `sqrt(mu) |alpha|`; it is `sqrt(mu)/r0`. -/
theorem C63_uni_refuted {al r0 s0 mu tol : ℝ} (hr : 0 < r0) (hmu : 0 < mu) (htol : 0 ≤ tol) (n : ℕ) :
    ∃ d, solve_kepler_uni (⟨0, some 1⟩ : Dual ℝ) (cst al) (cst r0) (cst s0) (cst mu) (cst tol) n = some d ∧
      d.val = 0 ∧ Dual.dot d = Real.sqrt mu * |al| ∧ (|al| * r0 ≠ 1 → Dual.dot d ≠ Real.sqrt mu / r0) := by
  obtain ⟨k, hk, hd, h1, -⟩ := uni_dual (⟨0, some 1⟩ : Dual ℝ) (cst al) (cst r0) (cst s0) (cst mu) tol n
  have hst : uniStart (0 : ℝ) al mu = 0 := by simp [uniStart]
  have hk0 : k = 0 := by
    rcases k with _ | k
    · rfl
    · have := h1 0 (by omega)
      simp only [Function.iterate_zero, id_eq, hst, kep_uni_eq, kepU_zero] at this
      simp at this
      linarith
  subst hk0
  have hdot : Dual.dot (uniStart (⟨0, some 1⟩ : Dual ℝ) (cst al) (cst mu)) = Real.sqrt mu * |al| := by
    show (Dual.addTan none (some (Real.sqrt mu * |al| * 1))).getD 0 = _
    simp [Dual.addTan]
  refine ⟨_, hd, hst, hdot, fun h => ?_⟩
  rw [Function.iterate_zero, id_eq, hdot]
  intro h2
  have hs := Real.sqrt_pos.2 hmu
  rw [eq_div_iff hr.ne', mul_assoc] at h2
  exact h (mul_left_cancel₀ hs.ne' (by linarith))

end uni

section kepler
variable {r v : V3 ℝ} {mu : ℝ}

/-- A constant vector in a traced computation. -/
abbrev cstV (r : V3 ℝ) : V3 (Dual ℝ) := ⟨cst r.x, cst r.y, cst r.z⟩

/-- The tangents of a traced vector. -/
noncomputable def dots (r : V3 (Dual ℝ)) : V3 ℝ := ⟨Dual.dot r.x, Dual.dot r.y, Dual.dot r.z⟩

/-- A traced value follows a line. -/
theorem Tracks.line (d : Dual ℝ) : Tracks (fun x => d.val + Dual.dot d * x) 0 d :=
  ⟨by simp, by simpa using ((hasDerivAt_id (0 : ℝ)).const_mul (Dual.dot d)).const_add d.val⟩

theorem alphaOf_real : (ℓ 1 / semimajor_axis (V3.norm r) (V3.norm v) mu : ℝ) = alphaOf r v mu := by
  simp [alphaOf]

/-- The traced row of `kepler` for fixed state and traced time. -/
theorem keplerRow_cst (t' : Dual ℝ) :
    keplerRow (cstV r) (cstV v) (cst mu) t'
      = keplerStep (chiOf t' (cst (alphaOf r v mu)) (cst (V3.norm r)) (cst (sigma_fn r v mu)) (cst mu))
        (cst (alphaOf r v mu)) (cst (V3.norm r)) (cst (sigma_fn r v mu)) (cstV r) (cstV v) (cst mu) := by
  rw [← alphaOf_real]
  rfl

theorem keplerRow_real (t : ℝ) : keplerRow r v mu t
    = stepOf r v mu (chiOf t (alphaOf r v mu) (V3.norm r) (sigma_fn r v mu) mu) := by
  rw [stepOf, ← alphaOf_real]; rfl

theorem stepOf_eq_exactProp (hmu : 0 < mu) (hh : angular_momentum r v ≠ ⟨0, 0, 0⟩) (χ : ℝ) :
    stepOf r v mu χ
      = exactProp r v mu (kepU (alphaOf r v mu) (V3.norm r) (sigma_fn r v mu) χ / Real.sqrt mu) := by
  have hs := Real.sqrt_pos.2 hmu
  rw [exactProp, ← exactChi_unique hmu hh (χ := χ) (isRoot_iff.2 (by field_simp))]

/-- C63: differentiating `kepler` with respect to time. The tangents of the returned position and velocity are
those of the two-body motion through the returned state, run at the rate
`rate = (tangent of chi) r / sqrt(mu)`, where `r` is the radius of the returned position. -/
theorem C63_kepler_rate (hmu : 0 < mu) (hh : angular_momentum r v ≠ ⟨0, 0, 0⟩) (ha : alphaOf r v mu ≠ 0)
    (t' : Dual ℝ) :
    ∃ R V, kepler [t'] (cstV r) (cstV v) (cst mu) = some ([R], [V]) ∧
      kepler [t'.val] r v mu = some ([R.vals], [V.vals]) ∧
      dots R = (Dual.dot (chiOf t' (cst (alphaOf r v mu)) (cst (V3.norm r)) (cst (sigma_fn r v mu)) (cst mu))
        * V3.norm R.vals / Real.sqrt mu) • V.vals ∧
      dots V = (Dual.dot (chiOf t' (cst (alphaOf r v mu)) (cst (V3.norm r)) (cst (sigma_fn r v mu)) (cst mu))
        * V3.norm R.vals / Real.sqrt mu) • ((-mu / V3.norm R.vals ^ 3) • R.vals) := by
  set d := chiOf t' (cst (alphaOf r v mu)) (cst (V3.norm r)) (cst (sigma_fn r v mu)) (cst mu) with hd
  have hk := kepler_eq_map [t'] (cstV r) (cstV v) (cst mu)
  simp only [List.map_cons, List.map_nil, keplerRow_cst, ← hd] at hk
  have hv : d.val = chiOf t'.val (alphaOf r v mu) (V3.norm r) (sigma_fn r v mu) mu := chiOf_vals _ _ _ _ _
  have hR : 0 < radOf r v mu d.val := radOf_pos hmu hh
  have hr := pos_ne hmu hh
  have h0 : V3.norm r ≠ 0 := ((norm_pos r).2 hr).ne'
  have hs := Real.sqrt_pos.2 hmu
  have hvals := keplerStep_vals d (cst (alphaOf r v mu)) (cst (V3.norm r)) (cst (sigma_fn r v mu)) (cst mu)
    (cstV r) (cstV v)
  have hvals' : ((keplerStep d (cst (alphaOf r v mu)) (cst (V3.norm r)) (cst (sigma_fn r v mu)) (cstV r) (cstV v)
      (cst mu)).1.vals, (keplerStep d (cst (alphaOf r v mu)) (cst (V3.norm r)) (cst (sigma_fn r v mu)) (cstV r)
      (cstV v) (cst mu)).2.vals) = stepOf r v mu d.val := hvals
  have hX := Tracks.line d
  have hcr : TracksV (fun _ => r) 0 (cstV r) := ⟨Tracks.const _, Tracks.const _, Tracks.const _⟩
  have hcv : TracksV (fun _ => v) 0 (cstV v) := ⟨Tracks.const _, Tracks.const _, Tracks.const _⟩
  obtain ⟨tR, tV⟩ := C62_keplerStep hX (Tracks.const (alphaOf r v mu)) (Tracks.const (V3.norm r))
    (Tracks.const (sigma_fn r v mu)) hcr hcv (Tracks.const mu) ha hmu h0
    (by rw [dchi_eq]; simpa using hR.ne')
  refine ⟨_, _, hk, ?_, ?_⟩
  · rw [kepler_eq_map]
    simp only [List.map_cons, List.map_nil, keplerRow_real, ← hv, ← hvals']
  generalize (keplerStep d (cst (alphaOf r v mu)) (cst (V3.norm r)) (cst (sigma_fn r v mu)) (cstV r) (cstV v)
    (cst mu)).1 = R at *
  generalize (keplerStep d (cst (alphaOf r v mu)) (cst (V3.norm r)) (cst (sigma_fn r v mu)) (cstV r) (cstV v)
    (cst mu)).2 = V at *
  have hV1 : R.vals = (stepOf r v mu d.val).1 := by rw [← hvals']
  have hV2 : V.vals = (stepOf r v mu d.val).2 := by rw [← hvals']
  have hn : V3.norm R.vals = radOf r v mu d.val := by rw [hV1]; exact step_norm hr hmu
  -- the clock
  set τ : ℝ → ℝ := fun x => kepU (alphaOf r v mu) (V3.norm r) (sigma_fn r v mu) (d.val + Dual.dot d * x)
    / Real.sqrt mu with hτ
  have hτ' : HasDerivAt τ (Dual.dot d * V3.norm R.vals / Real.sqrt mu) 0 := by
    have h1 : HasDerivAt (kepU (alphaOf r v mu) (V3.norm r) (sigma_fn r v mu)) (radOf r v mu d.val)
        (d.val + Dual.dot d * 0) := by
      simpa using hasDerivAt_kepU (alphaOf r v mu) (V3.norm r) (sigma_fn r v mu) (d.val + Dual.dot d * 0)
    have := (h1.comp (0 : ℝ) hX.deriv).div_const (Real.sqrt mu)
    rw [hn, mul_comm]
    exact this
  have hstep : ∀ x, keplerStep (d.val + Dual.dot d * x) (alphaOf r v mu) (V3.norm r) (sigma_fn r v mu) r v mu
      = exactProp r v mu (τ x) := fun x => stepOf_eq_exactProp hmu hh _
  have h00 : exactProp r v mu (τ 0) = stepOf r v mu d.val := by rw [← hstep 0]; simp
  obtain ⟨-, hq, hw⟩ := (C21_solves_two_body hmu hh).2 (τ 0) (Set.mem_univ _)
  simp only [hstep] at tR tV
  have hnn : Real.sqrt ((exactProp r v mu (τ 0)).1.x ^ 2 + (exactProp r v mu (τ 0)).1.y ^ 2
      + (exactProp r v mu (τ 0)).1.z ^ 2) = V3.norm R.vals := by
    rw [hV1, h00]; exact radius_eq_norm _
  simp only [hnn] at hw
  rw [hV2, ← h00]
  rw [hV1, ← h00] at hw hτ' ⊢
  generalize Dual.dot d * V3.norm (exactProp r v mu (τ 0)).1 / Real.sqrt mu = ρ at *
  obtain ⟨q1, q2, q3⟩ := hq
  obtain ⟨w1, w2, w3⟩ := hw
  constructor
  · have e1 := tR.x.deriv.unique (HasDerivAt.comp (0 : ℝ) q1 hτ')
    have e2 := tR.y.deriv.unique (HasDerivAt.comp (0 : ℝ) q2 hτ')
    have e3 := tR.z.deriv.unique (HasDerivAt.comp (0 : ℝ) q3 hτ')
    ext
    · simp only [dots, smul_x]; rw [e1]; ring
    · simp only [dots, smul_y]; rw [e2]; ring
    · simp only [dots, smul_z]; rw [e3]; ring
  · have e1 := tV.x.deriv.unique (HasDerivAt.comp (0 : ℝ) w1 hτ')
    have e2 := tV.y.deriv.unique (HasDerivAt.comp (0 : ℝ) w2 hτ')
    have e3 := tV.z.deriv.unique (HasDerivAt.comp (0 : ℝ) w3 hτ')
    ext
    · simp only [dots, smul_x] at *; rw [e1]; ring
    · simp only [dots, smul_y] at *; rw [e2]; ring
    · simp only [dots, smul_z] at *; rw [e3]; ring

/-- The tangent of the universal variable, when the start is accepted. -/
theorem chiOf_start {al r0 s0 mu t : ℝ}
    (h : |kepler_equ_uni (uniStart t al mu) al r0 s0 t mu| ≤ defaultTol) :
    chiOf (⟨t, some 1⟩ : Dual ℝ) (cst al) (cst r0) (cst s0) (cst mu)
      = ⟨Real.sqrt mu * |al| * t, some (Real.sqrt mu * |al| * 1)⟩ := by
  obtain ⟨k, hk, hd, h1, -⟩ := uni_dual (⟨t, some 1⟩ : Dual ℝ) (cst al) (cst r0) (cst s0) (cst mu) defaultTol 50
  have hk0 : k = 0 := by
    rcases k with _ | k
    · rfl
    · exact absurd (h1 0 (by omega)) (not_lt.2 h)
  subst hk0
  have hd' : solve_kepler_uni (⟨t, some 1⟩ : Dual ℝ) (cst al) (cst r0) (cst s0) (cst mu)
      = some (uniStart (⟨t, some 1⟩ : Dual ℝ) (cst al) (cst mu)) := hd
  rw [solve_eq_chiOf] at hd'
  exact Option.some.inj hd'

/-- C63, refuted for `kepler`: at time 0 the returned position is the initial one, but its derivative with respect
to time comes out as `|alpha| r0 v` instead of the velocity `v`, that of the velocity as `|alpha| r0` times the
acceleration. -/
theorem C63_kepler_refuted (hmu : 0 < mu) (hh : angular_momentum r v ≠ ⟨0, 0, 0⟩) (ha : alphaOf r v mu ≠ 0) :
    ∃ R V, kepler [(⟨0, some 1⟩ : Dual ℝ)] (cstV r) (cstV v) (cst mu) = some ([R], [V]) ∧
      R.vals = r ∧ V.vals = v ∧
      dots R = (|alphaOf r v mu| * V3.norm r) • v ∧
      dots V = (|alphaOf r v mu| * V3.norm r) • ((-mu / V3.norm r ^ 3) • r) ∧
      HasDerivV (fun t => (exactProp r v mu t).1) v 0 ∧
      (|alphaOf r v mu| * V3.norm r ≠ 1 → dots R ≠ v) := by
  obtain ⟨R, V, h1, h2, h3, h4⟩ := C63_kepler_rate hmu hh ha (⟨0, some 1⟩ : Dual ℝ)
  have hz := C21_solves_two_body hmu hh
  have hst : uniStart (0 : ℝ) (alphaOf r v mu) mu = 0 := by simp [uniStart]
  have hchi := chiOf_start (al := alphaOf r v mu) (r0 := V3.norm r) (s0 := sigma_fn r v mu) (mu := mu) (t := 0)
    (by rw [hst, kep_uni_eq, kepU_zero]; simp [defaultTol]; try positivity)
  have hval : chiOf (0 : ℝ) (alphaOf r v mu) (V3.norm r) (sigma_fn r v mu) mu = 0 := by
    have := chiOf_vals (⟨0, some 1⟩ : Dual ℝ) (cst (alphaOf r v mu)) (cst (V3.norm r)) (cst (sigma_fn r v mu)) (cst mu)
    rw [hchi] at this
    simpa using this.symm
  rw [kepler_eq_map] at h2
  simp only [List.map_cons, List.map_nil, keplerRow_real, hval] at h2
  rw [stepOf_eq_exactProp hmu hh, kepU_zero, zero_div, hz.1] at h2
  obtain ⟨hR, hV⟩ := Prod.mk.inj (Option.some.inj h2)
  have hR : R.vals = r := by simpa using hR.symm
  have hV : V.vals = v := by simpa using hV.symm
  have hs := Real.sqrt_pos.2 hmu
  have hrate : Dual.dot (⟨Real.sqrt mu * |alphaOf r v mu| * 0, some (Real.sqrt mu * |alphaOf r v mu| * 1)⟩ : Dual ℝ)
      * V3.norm r / Real.sqrt mu = |alphaOf r v mu| * V3.norm r := by
    simp only [Dual.dot, Option.getD_some]; field_simp
  rw [hchi, hR, hV, hrate] at h3
  rw [hchi, hR, hrate] at h4
  refine ⟨R, V, h1, hR, hV, h3, h4, ?_, fun hne => ?_⟩
  · have := (hz.2 0 (Set.mem_univ _)).2.1
    beta_reduce at this
    rw [hz.1] at this
    exact this
  · rw [h3]
    intro he
    have hv : v ≠ ⟨0, 0, 0⟩ := by
      rintro rfl
      exact hh (by ext <;> simp [angular_momentum, cross])
    apply hv
    have hx := congrArg V3.x he
    have hy := congrArg V3.y he
    have hzz := congrArg V3.z he
    simp only [smul_x, smul_y, smul_z] at hx hy hzz
    have hk : ∀ y : ℝ, |alphaOf r v mu| * V3.norm r * y = y → y = 0 := fun y hy => by
      have : (|alphaOf r v mu| * V3.norm r - 1) * y = 0 := by linarith
      exact (mul_eq_zero.1 this).resolve_left (sub_ne_zero.2 hne)
    ext
    · exact hk _ hx
    · exact hk _ hy
    · exact hk _ hzz

/-- C63, refuted for `kepler` on an interval of times: around time 0 the starting value passes the residual test,
and all derivatives with respect to time are off by the factor `|alpha| |R|`. -/
theorem C63_kepler_near_zero_refuted (hmu : 0 < mu) (hh : angular_momentum r v ≠ ⟨0, 0, 0⟩)
    (ha : alphaOf r v mu ≠ 0) :
    ∃ δ > 0, ∀ t : ℝ, |t| < δ →
      ∃ R V, kepler [(⟨t, some 1⟩ : Dual ℝ)] (cstV r) (cstV v) (cst mu) = some ([R], [V]) ∧
        kepler [t] r v mu = some ([R.vals], [V.vals]) ∧
        dots R = (|alphaOf r v mu| * V3.norm R.vals) • V.vals ∧
        dots V = (|alphaOf r v mu| * V3.norm R.vals) • ((-mu / V3.norm R.vals ^ 3) • R.vals) := by
  have hs := Real.sqrt_pos.2 hmu
  have hc : ContinuousAt (fun t : ℝ => |kepler_equ_uni (uniStart t (alphaOf r v mu) mu) (alphaOf r v mu) (V3.norm r)
      (sigma_fn r v mu) t mu|) 0 := by
    have h1 := tracks_uniStart (Tracks.var 0) (Tracks.const (alphaOf r v mu)) (Tracks.const mu) ha hmu
    exact (C62_kepler_equ_uni h1 (Tracks.const (alphaOf r v mu)) (Tracks.const (V3.norm r))
      (Tracks.const (sigma_fn r v mu)) (Tracks.var 0) (Tracks.const mu) ha hmu).1.deriv.continuousAt.abs
  have h0 : (fun t : ℝ => |kepler_equ_uni (uniStart t (alphaOf r v mu) mu) (alphaOf r v mu) (V3.norm r)
      (sigma_fn r v mu) t mu|) 0 < defaultTol := by
    have hst : uniStart (0 : ℝ) (alphaOf r v mu) mu = 0 := by simp [uniStart]
    simp only [hst, kep_uni_eq, kepU_zero]
    simp [defaultTol]
  obtain ⟨δ, hδ, hb⟩ := Metric.eventually_nhds_iff.1 (hc.eventually_lt_const h0)
  refine ⟨δ, hδ, fun t ht => ?_⟩
  have ht' := (hb (y := t) (by simpa [Real.dist_eq] using ht)).le
  obtain ⟨R, V, h1, h2, h3, h4⟩ := C63_kepler_rate hmu hh ha (⟨t, some 1⟩ : Dual ℝ)
  have hrate : Dual.dot (⟨Real.sqrt mu * |alphaOf r v mu| * t, some (Real.sqrt mu * |alphaOf r v mu| * 1)⟩ : Dual ℝ)
      * V3.norm R.vals / Real.sqrt mu = |alphaOf r v mu| * V3.norm R.vals := by
    simp only [Dual.dot, Option.getD_some]; field_simp
  rw [chiOf_start ht', hrate] at h3 h4
  exact ⟨R, V, h1, h2, h3, h4⟩

/-- An orbit from its periapsis, `e = 0.44`: the derivative of the position at time 0 comes out as `0.56` of the
velocity. -/
example : ∃ R V, kepler [(⟨0, some 1⟩ : Dual ℝ)] (cstV ⟨1, 0, 0⟩) (cstV ⟨0, 6 / 5, 0⟩) (cst 1) = some ([R], [V]) ∧
    R.vals = ⟨1, 0, 0⟩ ∧ dots R = (14 / 25 : ℝ) • (⟨0, 6 / 5, 0⟩ : V3 ℝ) := by
  have hn : V3.norm (⟨1, 0, 0⟩ : V3 ℝ) = 1 := by simp [V3.norm, V3.dot]
  have hn2 : V3.norm (⟨0, 6 / 5, 0⟩ : V3 ℝ) = 6 / 5 := by
    have : V3.dot (⟨0, 6 / 5, 0⟩ : V3 ℝ) ⟨0, 6 / 5, 0⟩ = (6 / 5) ^ 2 := by simp [V3.dot]; norm_num
    simp only [V3.norm, sqrt_real, this]
    exact Real.sqrt_sq (by norm_num)
  have hal : alphaOf (⟨1, 0, 0⟩ : V3 ℝ) ⟨0, 6 / 5, 0⟩ 1 = 14 / 25 := by
    rw [alphaOf, hn, hn2]; simp only [semimajor_axis]; norm_num
  have hh : angular_momentum (⟨1, 0, 0⟩ : V3 ℝ) ⟨0, 6 / 5, 0⟩ ≠ ⟨0, 0, 0⟩ := by
    intro h
    have := congrArg V3.z h
    norm_num [angular_momentum, cross] at this
  obtain ⟨R, V, h1, h2, -, h3, -⟩ := C63_kepler_refuted (mu := 1) (by norm_num) hh (by rw [hal]; norm_num)
  refine ⟨R, V, h1, h2, ?_⟩
  rw [h3, hal, hn, abs_of_pos (by norm_num), mul_one]

end kepler
end Adx
