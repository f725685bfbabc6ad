import Verif.Props.C78
import Verif.Props.C63b

/-! # C78, continued: the solvers

Nested forward mode differentiates the Newton iterations that were made, to every order. The first derivative that comes out
of `solve_kepler_elps` at `M = 0` is right, the third is not, whatever the tolerance and the iteration limit. -/

namespace Adx
open Spec Filter Topology

section loops
variable {V : Type} [NormedAddCommGroup V] [NormedSpace ℝ V] {dir : ℕ → V} {lv : ℕ} {s : V}

/-- The stopping tests look at values. -/
theorem base_abs (a : DualN lv) : DualN.base lv (JFun.abs a) = |DualN.base lv a| := by
  induction lv with
  | zero => rfl
  | succ n ih => exact ih _
theorem base_lt (a b : DualN lv) : JFun.lt a b = decide (DualN.base lv a < DualN.base lv b) := by
  induction lv with
  | zero => rfl
  | succ n ih => exact ih _ _
theorem base_const (c : ℝ) : DualN.base lv (DualN.const lv c) = c := by
  induction lv with
  | zero => rfl
  | succ n ih => exact ih

theorem test_iff {g : V → ℝ} {a : DualN lv} (ha : Jet dir g s a) (tol : ℝ) :
    JFun.lt (DualN.const lv tol) (JFun.abs a) = decide (tol < |g s|) := by
  rw [base_lt, base_abs, base_const, ha.base]

section elps
variable {M e : V → ℝ} {M' e' : DualN lv}

theorem jet_elpsStart (hM : Jet dir M s M') (he : Jet dir e s e') :
    Jet dir (fun s => elpsStart (M s) (e s)) s (elpsStart M' e') :=
  (hM.add (he.mul hM.sin)).add (((he.pow 2).mul ((Jet.nat 2).mul hM).sin).div (Jet.nat 2) (by norm_num))

/-- C78: all derivatives of the `k`-th iterate. -/
theorem C78_elps_iterate (hM : Jet dir M s M') (he : Jet dir e s e') (he0 : 0 ≤ e s) (he1 : e s < 1) (k : ℕ) :
    Jet dir (fun s => (newtonElps (M s) (e s))^[k] (elpsStart (M s) (e s))) s
      ((newtonElps M' e')^[k] (elpsStart M' e')) := by
  induction k with
  | zero => exact jet_elpsStart hM he
  | succ k ih =>
    simp only [Function.iterate_succ_apply']
    obtain ⟨h1, h2, -, -⟩ := C78_kepler_equ ih he hM ih ih
    exact ih.sub (h1.div h2 (by have := dE_ge he0 ((newtonElps (M s) (e s))^[k] (elpsStart (M s) (e s))); linarith))

/-- C78: away from jumps of the number of iterations, `solve_kepler_elps` on traced values carries all derivatives of
`solve_kepler_elps`. -/
theorem C78_elps_derivatives (hM : Jet dir M s M') (he : Jet dir e s e') (he0 : 0 ≤ e s) (he1 : e s < 1)
    {tol : ℝ} (htol : 0 < tol) (n : ℕ)
    (hjump : ∀ j < n, |(newtonElps (M s) (e s))^[j + 1] (elpsStart (M s) (e s))
      - (newtonElps (M s) (e s))^[j] (elpsStart (M s) (e s))| ≠ tol) :
    ∃ d k, solve_kepler_elps M' e' (DualN.const lv tol) n = some d ∧ (n ≠ 0 → 0 < k) ∧
      d = (newtonElps M' e')^[k] (elpsStart M' e') ∧
      Jet dir (fun x => (solve_kepler_elps (M x) (e x) tol n).getD 0) s d := by
  obtain ⟨k, hk, hr, hs, h1, h2⟩ := C13_elps (M s) (e s) tol n
  set D : ℕ → V → ℝ := fun j x => (newtonElps (M x) (e x))^[j] (elpsStart (M x) (e x))
        - prevOf (newtonElps (M x) (e x)) (elpsStart (M x) (e x)) (elpsStart (M x) (e x) + ℓ 2 * tol) j with hD
  have hj : ∀ j, Jet dir (D j) s ((newtonElps M' e')^[j] (elpsStart M' e')
      - prevOf (newtonElps M' e') (elpsStart M' e') (elpsStart M' e' + ℓ 2 * DualN.const lv tol) j) := by
    intro j
    have hx := C78_elps_iterate hM he he0 he1 j
    rcases j with _ | j
    · exact hx.sub ((jet_elpsStart hM he).add ((Jet.nat 2).mul (Jet.const tol)))
    · exact hx.sub (C78_elps_iterate hM he he0 he1 j)
  have h1' : ∀ j < k, tol < |D j s| := fun j hj' => by simpa [hD] using h1 j hj'
  have h2' : k < n → |D k s| ≤ tol := fun h => by simpa [hD] using h2 h
  have hD0 : |D 0 s| = 2 * tol := by
    simp only [hD, Function.iterate_zero, id_eq, prevOf]
    rw [sub_add_cancel_left, abs_neg, abs_of_pos (by simpa using htol)]; simp
  have hne : ∀ j ≤ n, |D j s| ≠ tol := by
    intro j hj
    rcases j with _ | j
    · rw [hD0]; linarith
    · exact hjump j (by omega)
  have e1 : ∀ᶠ x in 𝓝 s, ∀ j ∈ Finset.range k, tol < |D j x| :=
    (Finset.eventually_all _).2 fun j hj' => (hj j).smooth.continuousAt.abs.eventually_const_lt (h1' j (Finset.mem_range.1 hj'))
  have e2 : ∀ᶠ x in 𝓝 s, k < n → |D k x| < tol := by
    by_cases h : k < n
    · filter_upwards [(hj k).smooth.continuousAt.abs.eventually_lt_const (lt_of_le_of_ne (h2' h) (hne k hk))] with x hx _ using hx
    · exact .of_forall fun x hx => absurd hx h
  refine ⟨_, k, elps_of_tests hk (fun j hj' => ?_) (fun h => ?_), fun hn => ?_, rfl, (C78_elps_iterate hM he he0 he1 k).congr ?_⟩
  · rw [test_iff (hj j)]; simpa using h1' j hj'
  · rw [test_iff (hj k)]; simpa using h2' h
  · by_contra hk0
    have hk0 : k = 0 := by omega
    subst hk0
    have := h2' (by omega)
    rw [hD0] at this
    linarith
  · filter_upwards [e1, e2] with x a b
    rw [elps_of_tests hk (fun j hj' => by simpa [hD] using a j (Finset.mem_range.2 hj'))
      (fun h => by simpa [hD] using (b h).le)]
    rfl

end elps

section hypb
variable {N e : V → ℝ} {N' e' : DualN lv}

theorem jet_hypbStart (hN : Jet dir N s N') (he : Jet dir e s e') (he0 : e s ≠ 0) :
    Jet dir (fun s => hypbStart (N s) (e s)) s (hypbStart N' e') := by
  have hq : Jet dir (fun s => ((2 : ℕ) : ℝ) * N s / e s) s (ℓ 2 * N' / e') := ((Jet.nat 2).mul hN).div he he0
  have hp : 0 < (((2 : ℕ) : ℝ) * N s / e s) ^ 2 + ((1 : ℕ) : ℝ) := by positivity
  refine (hq.add (((hq.pow 2).add (Jet.nat 1)).sqrt hp)).log ?_
  set x := ((2 : ℕ) : ℝ) * N s / e s
  have h1 : |x| < Real.sqrt (x ^ 2 + ((1 : ℕ) : ℝ)) := by
    rw [← Real.sqrt_sq_eq_abs]; exact Real.sqrt_lt_sqrt (sq_nonneg x) (by norm_num)
  have := neg_abs_le x
  linarith

theorem C78_hypb_iterate (hN : Jet dir N s N') (he : Jet dir e s e') (he1 : 1 < e s) (k : ℕ) :
    Jet dir (fun s => (newtonHypb (N s) (e s))^[k] (hypbStart (N s) (e s))) s
      ((newtonHypb N' e')^[k] (hypbStart N' e')) := by
  induction k with
  | zero => exact jet_hypbStart hN he (by linarith)
  | succ k ih =>
    simp only [Function.iterate_succ_apply']
    obtain ⟨-, -, h1, h2⟩ := C78_kepler_equ ih he hN ih hN
    refine ih.sub (h1.div h2 ?_)
    have : 1 < e s * Real.cosh ((newtonHypb (N s) (e s))^[k] (hypbStart (N s) (e s))) := by
      nlinarith [Real.one_le_cosh ((newtonHypb (N s) (e s))^[k] (hypbStart (N s) (e s)))]
    simp only [dH, cosh_real, Nat.cast_one]
    linarith

theorem C78_hypb_derivatives (hN : Jet dir N s N') (he : Jet dir e s e') (he1 : 1 < e s) (tol : ℝ) (n : ℕ)
    (hjump : ∀ j < n, |kepler_equ_hypb ((newtonHypb (N s) (e s))^[j] (hypbStart (N s) (e s))) (e s) (N s)| ≠ tol) :
    ∃ d, solve_kepler_hypb N' e' (DualN.const lv tol) n = some d ∧
      Jet dir (fun x => (solve_kepler_hypb (N x) (e x) tol n).getD 0) s d := by
  obtain ⟨k, hk, hr, hs, h1, h2⟩ := C13_hypb (N s) (e s) tol n
  set D : ℕ → V → ℝ := fun j x =>
    kepler_equ_hypb ((newtonHypb (N x) (e x))^[j] (hypbStart (N x) (e x))) (e x) (N x) with hD
  have hj : ∀ j, Jet dir (D j) s (kepler_equ_hypb ((newtonHypb N' e')^[j] (hypbStart N' e')) e' N') := fun j =>
    have hx := C78_hypb_iterate hN he he1 j
    (C78_kepler_equ hx he hN hx hN).2.2.1
  have h1' : ∀ j < k, tol < |D j s| := fun j hj' => by simpa [hD] using h1 j hj'
  have h2' : k < n → |D k s| ≤ tol := fun h => by simpa [hD] using h2 h
  have e1 : ∀ᶠ x in 𝓝 s, ∀ j ∈ Finset.range k, tol < |D j x| :=
    (Finset.eventually_all _).2 fun j hj' => (hj j).smooth.continuousAt.abs.eventually_const_lt (h1' j (Finset.mem_range.1 hj'))
  have e2 : ∀ᶠ x in 𝓝 s, k < n → |D k x| < tol := by
    by_cases h : k < n
    · filter_upwards [(hj k).smooth.continuousAt.abs.eventually_lt_const (lt_of_le_of_ne (h2' h) (hjump k h))] with x hx _ using hx
    · exact .of_forall fun x hx => absurd hx h
  refine ⟨_, hypb_of_tests hk (fun j hj' => ?_) (fun h => ?_), (C78_hypb_iterate hN he he1 k).congr ?_⟩
  · rw [test_iff (hj j)]; simpa using h1' j hj'
  · rw [test_iff (hj k)]; simpa using h2' h
  · filter_upwards [e1, e2] with x a b
    rw [hypb_of_tests hk (fun j hj' => by simpa [hD] using a j (Finset.mem_range.2 hj'))
      (fun h => by simpa [hD] using (b h).le)]
    rfl

end hypb

section uni
variable {T A B S m : V → ℝ} {T' A' B' S' m' : DualN lv}

theorem C78_uni_iterate (hT : Jet dir T s T') (hA : Jet dir A s A') (hB : Jet dir B s B') (hS : Jet dir S s S')
    (hm : Jet dir m s m') (hA0 : A s ≠ 0) (hm0 : 0 < m s) (hpos : ∀ x, 0 < radU (A s) (B s) (S s) x) (k : ℕ) :
    Jet dir (fun s => (newtonUni (T s) (A s) (B s) (S s) (m s))^[k] (uniStart (T s) (A s) (m s))) s
      ((newtonUni T' A' B' S' m')^[k] (uniStart T' A' m')) := by
  induction k with
  | zero => exact ((hm.sqrt hm0).mul (hA.abs hA0)).mul hT
  | succ k ih =>
    simp only [Function.iterate_succ_apply']
    obtain ⟨h1, h2⟩ := C78_kepler_equ_uni ih hA hB hS hT hm hA0 hm0
    exact ih.sub (h1.div h2 (by rw [dchi_eq]; exact (hpos _).ne'))

theorem C78_uni_derivatives (hT : Jet dir T s T') (hA : Jet dir A s A') (hB : Jet dir B s B') (hS : Jet dir S s S')
    (hm : Jet dir m s m') (hA0 : A s ≠ 0) (hm0 : 0 < m s) (hpos : ∀ x, 0 < radU (A s) (B s) (S s) x) (tol : ℝ) (n : ℕ)
    (hjump : ∀ j < n, |kepler_equ_uni ((newtonUni (T s) (A s) (B s) (S s) (m s))^[j] (uniStart (T s) (A s) (m s)))
      (A s) (B s) (S s) (T s) (m s)| ≠ tol) :
    ∃ d, solve_kepler_uni T' A' B' S' m' (DualN.const lv tol) n = some d ∧
      Jet dir (fun x => (solve_kepler_uni (T x) (A x) (B x) (S x) (m x) tol n).getD 0) s d := by
  obtain ⟨k, hk, hr, hs, h1, h2⟩ := C13_uni (T s) (A s) (B s) (S s) (m s) tol n
  set D : ℕ → V → ℝ := fun j x => kepler_equ_uni ((newtonUni (T x) (A x) (B x) (S x) (m x))^[j]
    (uniStart (T x) (A x) (m x))) (A x) (B x) (S x) (T x) (m x) with hD
  have hj : ∀ j, Jet dir (D j) s (kepler_equ_uni ((newtonUni T' A' B' S' m')^[j] (uniStart T' A' m')) A' B' S' T' m') :=
    fun j => (C78_kepler_equ_uni (C78_uni_iterate hT hA hB hS hm hA0 hm0 hpos j) hA hB hS hT hm hA0 hm0).1
  have h1' : ∀ j < k, tol < |D j s| := fun j hj' => by simpa [hD] using h1 j hj'
  have h2' : k < n → |D k s| ≤ tol := fun h => by simpa [hD] using h2 h
  have e1 : ∀ᶠ x in 𝓝 s, ∀ j ∈ Finset.range k, tol < |D j x| :=
    (Finset.eventually_all _).2 fun j hj' => (hj j).smooth.continuousAt.abs.eventually_const_lt (h1' j (Finset.mem_range.1 hj'))
  have e2 : ∀ᶠ x in 𝓝 s, k < n → |D k x| < tol := by
    by_cases h : k < n
    · filter_upwards [(hj k).smooth.continuousAt.abs.eventually_lt_const (lt_of_le_of_ne (h2' h) (hjump k h))] with x hx _ using hx
    · exact .of_forall fun x hx => absurd hx h
  refine ⟨_, uni_of_tests hk (fun j hj' => ?_) (fun h => ?_), (C78_uni_iterate hT hA hB hS hm hA0 hm0 hpos k).congr ?_⟩
  · rw [test_iff (hj j)]; simpa using h1' j hj'
  · rw [test_iff (hj k)]; simpa using h2' h
  · filter_upwards [e1, e2] with x a b
    rw [uni_of_tests hk (fun j hj' => by simpa [hD] using a j (Finset.mem_range.2 hj'))
      (fun h => by simpa [hD] using (b h).le)]
    rfl

end uni
end loops
end Adx
