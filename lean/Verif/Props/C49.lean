import Verif.Rnd
import Verif.Props.C13
import Mathlib.Analysis.Real.Pi.Bounds

/-! # C49: does `solve_kepler_elps` always take a Newton step?

The loop is started with the "previous" value `E0 + 2 tol`, so that its test
`|E - E_prev| > tol` is true the first time. In exact arithmetic that works for every `tol ≠ 0`. In a
rounded arithmetic it fails as soon as `E0 + 2 tol` rounds to `E0`: with the default tolerance and
binary32 that is every `E0 ≥ 64`, i.e. mean anomalies beyond about ten revolutions. Then the
unrefined starting value is returned, whatever `max_iter`.
-/

set_option linter.unusedSectionVars false

namespace Adx

section AnyArithmetic
variable {α : Type} [Add α] [Sub α] [Neg α] [Mul α] [Div α] [Pow α ℕ] [NatCast α] [JFun α]

/-- C49, any arithmetic: if the first test is false no step is taken, for every `max_iter`. -/
theorem C49_absorbed (M e tol : α) (max_iter : ℕ)
    (h : JFun.lt tol (JFun.abs (elpsStart M e - (elpsStart M e + ℓ 2 * tol))) = false) :
    elpsRun M e tol max_iter = some (0, elpsStart M e, elpsStart M e + ℓ 2 * tol) ∧
      solve_kepler_elps M e tol max_iter = some (elpsStart M e) := by
  obtain ⟨k, _, h0, h1, h2, _⟩ := C13_elps M e tol max_iter
  rcases k with _ | k
  · exact ⟨h0, h1⟩
  · have := h2 0 (by omega)
    simp only [Function.iterate_zero, id_eq, prevOf] at this
    rw [h] at this; cases this

/-- C49, any arithmetic: if the first test is true at least one step is taken. -/
theorem C49_steps (M e tol : α) (max_iter : ℕ) (hm : 1 ≤ max_iter)
    (h : JFun.lt tol (JFun.abs (elpsStart M e - (elpsStart M e + ℓ 2 * tol))) = true) :
    ∃ k prev, 1 ≤ k ∧ k ≤ max_iter ∧
      elpsRun M e tol max_iter = some (k, (newtonElps M e)^[k] (elpsStart M e), prev) ∧
      solve_kepler_elps M e tol max_iter = some ((newtonElps M e)^[k] (elpsStart M e)) := by
  obtain ⟨k, hk, h0, h1, _, h3⟩ := C13_elps M e tol max_iter
  rcases k with _ | k
  · have := h3 (by omega)
    simp only [Function.iterate_zero, id_eq, prevOf] at this
    rw [h] at this; cases this
  · exact ⟨k + 1, _, by omega, hk, h0, h1⟩

end AnyArithmetic

/-- C49, exact arithmetic: with `tol ≠ 0` and `max_iter ≥ 1` at least one Newton step is taken. -/
theorem C49_exact (M e tol : ℝ) (max_iter : ℕ) (hm : 1 ≤ max_iter) (ht : tol ≠ 0) :
    ∃ k prev, 1 ≤ k ∧ k ≤ max_iter ∧
      elpsRun M e tol max_iter = some (k, (newtonElps M e)^[k] (elpsStart M e), prev) ∧
      solve_kepler_elps M e tol max_iter = some ((newtonElps M e)^[k] (elpsStart M e)) := by
  refine C49_steps M e tol max_iter hm ?_
  simp only [lt_real, abs_real, decide_eq_true_eq, Nat.cast_ofNat]
  rw [show elpsStart M e - (elpsStart M e + 2 * tol) = -(2 * tol) by ring, abs_neg, abs_mul, abs_two]
  have := abs_pos.2 ht
  have := le_abs_self tol
  linarith

/-- C49, exact arithmetic: `tol = 0` takes no step at all (`0 > 0` is false). -/
theorem C49_exact_zero (M e : ℝ) (max_iter : ℕ) :
    solve_kepler_elps M e 0 max_iter = some (elpsStart M e) :=
  (C49_absorbed M e 0 max_iter (by simp)).2

/-- C49, every rounding that absorbs `2 tol`: no step is taken, for every `max_iter`. -/
theorem C49_rounding (F : Fp) (M e tol : Rnd F) (max_iter : ℕ) (h0 : F.rd 0 = 0) (ht : 0 ≤ tol.val)
    (h : F.rd ((elpsStart M e).val + F.rd (F.rd 2 * tol.val)) = (elpsStart M e).val) :
    solve_kepler_elps M e tol max_iter = some (elpsStart M e) := by
  refine (C49_absorbed M e tol max_iter ?_).2
  simp only [Rnd.lt_rnd, Rnd.val_abs, Rnd.val_sub, Rnd.val_add, Rnd.val_mul, Rnd.val_natCast]
  simp only [Nat.cast_ofNat, h, sub_self, h0, abs_zero, decide_eq_false_iff_not]
  linarith

/-! ### binary32 -/

theorem rep_int (m : ℤ) (h : |m| ≤ 2 ^ 24) : Rep32 (m : ℝ) := ⟨m, 0, h, by simp⟩

theorem rd32_one : rd32 1 = 1 := by
  simpa using (rep_int 1 (by norm_num)).rd
theorem rd32_two : rd32 2 = 2 := by
  simpa using (rep_int 2 (by norm_num)).rd
theorem rd32_million : rd32 1000000 = 1000000 := by
  simpa using (rep_int 1000000 (by norm_num)).rd

/-- The value of the default tolerance `1e-6` in binary32 and of twice it. -/
theorem tol32 (F : Fp) (hF : F.rd = rd32) :
    |(defaultTol : Rnd F).val - 1 / 1000000| ≤ 1 / 1000000 / 2 ^ 24 ∧
    |F.rd (F.rd 2 * (defaultTol : Rnd F).val) - 2 / 1000000| ≤ 5 / 1000000 / 2 ^ 24 := by
  have h1 : (defaultTol : Rnd F).val = rd32 (1 / 1000000) := by
    simp only [defaultTol, Rnd.val_div, Rnd.val_natCast, hF]
    simp only [Nat.cast_one, Nat.cast_ofNat, rd32_one, rd32_million]
  have h2 := rd32_rel (1 / 1000000)
  rw [abs_of_pos (by norm_num : (0 : ℝ) < 1 / 1000000)] at h2
  rw [h1, hF, rd32_two]
  refine ⟨h2, ?_⟩
  have h3 := rd32_rel (2 * rd32 (1 / 1000000))
  rw [abs_le] at h2
  have hp : 0 < rd32 (1 / 1000000) := by linarith [h2.1]
  rw [abs_of_pos (by linarith : 0 < 2 * rd32 (1 / 1000000)), abs_le] at h3
  rw [abs_le]
  constructor <;> linarith [h2.1, h2.2, h3.1, h3.2]

theorem start_rep (F : Fp) (hF : F.rd = rd32) (M e : Rnd F) : Rep32 (elpsStart M e).val := by
  simp only [elpsStart, Rnd.val_add, hF]
  exact rd32_rep _

/-- C49, binary32 with the default tolerance: whenever the starting value is at least 64 the loop
does nothing: the unrefined starting value is returned, for every `M`, `e` and iteration limit. -/
theorem C49_f32_absorbs (F : Fp) (hF : F.rd = rd32) (M e : Rnd F) (max_iter : ℕ)
    (h : 64 ≤ (elpsStart M e).val) :
    solve_kepler_elps M e defaultTol max_iter = some (elpsStart M e) := by
  obtain ⟨h1, h2⟩ := tol32 F hF
  rw [abs_le] at h1 h2
  refine C49_rounding F M e defaultTol max_iter (by rw [hF]; exact rd32_zero)
    (by linarith [h1.1]) ?_
  rw [hF] at h2 ⊢
  refine rd32_absorb (start_rep F hF M e) (by linarith) (by linarith [h2.1]) ?_
  have := ulp32_ge (x := (elpsStart M e).val) (n := 6)
    (by rw [abs_of_pos (by linarith)]; norm_num; linarith)
  norm_num at this
  linarith [h2.2]

/-- C49, binary32: starting values in `[0, 64)` do get refined (`max_iter ≥ 1`), so 64 is exactly
where the property stops being true on the positive axis. -/
theorem C49_f32_steps (F : Fp) (hF : F.rd = rd32) (M e : Rnd F) (max_iter : ℕ) (hm : 1 ≤ max_iter)
    (h0 : 0 ≤ (elpsStart M e).val) (h : (elpsStart M e).val < 64) :
    ∃ k prev, 1 ≤ k ∧ k ≤ max_iter ∧
      elpsRun M e defaultTol max_iter = some (k, (newtonElps M e)^[k] (elpsStart M e), prev) ∧
      solve_kepler_elps M e defaultTol max_iter
        = some ((newtonElps M e)^[k] (elpsStart M e)) := by
  obtain ⟨h1, h2⟩ := tol32 F hF
  rw [abs_le] at h1 h2
  refine C49_steps M e defaultTol max_iter hm ?_
  simp only [Rnd.lt_rnd, Rnd.val_abs, Rnd.val_sub, Rnd.val_add, Rnd.val_mul, Rnd.val_natCast]
  simp only [Nat.cast_ofNat, decide_eq_true_eq]
  rw [hF] at h2 ⊢
  set x := (elpsStart M e).val with hx
  set t := rd32 (rd32 2 * (defaultTol : Rnd F).val) with htd
  set τ := (defaultTol : Rnd F).val with hτ
  have hrep : Rep32 x := start_rep F hF M e
  -- the rounded sum is at least 1.04e-6 above x
  have key : x + 104 / 100000000 ≤ rd32 (x + t) := by
    have hs0 : x + t ≠ 0 := by linarith [h2.1]
    by_cases h32 : x + t < 32
    · have hu := ulp32_le (n := 5) hs0 (by rw [abs_of_pos (by linarith [h2.1])]; norm_num; linarith)
      have he := rd32_err (x + t)
      rw [abs_le] at he
      norm_num at hu
      linarith [he.1, h2.1]
    push Not at h32
    by_cases hx32 : x < 32
    · have h3 := rd32_ge_pow (x := x + t) (n := 5) (by norm_num; linarith)
      have h4 := hrep.le_pred (n := 4) (by norm_num; linarith [h2.2]) (by norm_num; linarith)
      norm_num at h3 h4
      linarith
    push Not at hx32
    by_cases h64 : x + t < 64
    · have hu1 := ulp32_eq (x := x) (n := 5) (by norm_num; linarith) (by norm_num; linarith)
      have hu2 := ulp32_eq (x := x + t) (n := 5) (by norm_num; linarith [h2.1]) (by norm_num; linarith)
      obtain ⟨m, hm⟩ := hrep.units
      obtain ⟨n, hn⟩ : ∃ n : ℤ, rd32 (x + t) = n * ulp32 (x + t) := ⟨_, rfl⟩
      have he := rd32_err (x + t)
      rw [abs_le] at he
      rw [hu1] at hm
      rw [hu2] at hn he
      have hmn : m < n := by
        have : (m : ℝ) * (2 : ℝ) ^ (5 - 23 : ℤ) < n * (2 : ℝ) ^ (5 - 23 : ℤ) := by
          rw [← hm, ← hn]
          have := he.1
          norm_num at this
          linarith [h2.1]
        exact_mod_cast lt_of_mul_lt_mul_right this (by positivity)
      have : (m : ℝ) + 1 ≤ n := by exact_mod_cast hmn
      rw [hn, hm]
      norm_num
      nlinarith
    · push Not at h64
      have h3 := rd32_ge_pow (x := x + t) (n := 6) (by norm_num; linarith)
      have h4 := hrep.le_pred (n := 5) (by norm_num; linarith [h2.2]) (by norm_num; linarith)
      norm_num at h3 h4
      linarith
  have hr := rd32_rel (x - rd32 (x + t))
  have hneg : x - rd32 (x + t) < 0 := by linarith
  rw [abs_of_neg hneg, abs_le] at hr
  have : rd32 (x - rd32 (x + t)) < 0 := by
    have := hr.2
    nlinarith
  rw [abs_of_neg this]
  have := hr.2
  nlinarith [h1.2]


theorem rd32_abs_le {x b : ℝ} (h : |x| ≤ b) : |rd32 x| ≤ b * (1 + 1 / 2 ^ 24) := by
  have h1 := rd32_rel x
  have : |rd32 x| ≤ |rd32 x - x| + |x| := by
    calc |rd32 x| = |(rd32 x - x) + x| := by ring_nf
      _ ≤ _ := abs_add_le _ _
  nlinarith [abs_nonneg x]

theorem rd32_ge_rel {x b : ℝ} (hb : 0 ≤ b) (h : b ≤ x) : b * (1 - 1 / 2 ^ 24) ≤ rd32 x := by
  have h1 := rd32_rel x
  rw [abs_of_nonneg (hb.trans h), abs_le] at h1
  nlinarith [h1.1]

/-- C49, binary32: for **every** mean anomaly `M ≥ 72` and every `|e| ≤ 1`, with the default tolerance,
`solve_kepler_elps` returns its starting value unrefined, whatever `max_iter`. (The computed sine is
only assumed to stay in `[-1, 1]`.) -/
theorem C49_f32_large (F : Fp) (hF : F.rd = rd32) (hs : ∀ x, |F.sin x| ≤ 1) (M e : Rnd F)
    (max_iter : ℕ) (hM : 72 ≤ M.val) (he : |e.val| ≤ 1) :
    solve_kepler_elps M e defaultTol max_iter = some (elpsStart M e) := by
  refine C49_f32_absorbs F hF M e max_iter ?_
  simp only [elpsStart, Rnd.val_add, Rnd.val_mul, Rnd.val_div, Rnd.val_sin, Rnd.val_sq,
    Rnd.val_natCast, hF]
  simp only [Nat.cast_ofNat, rd32_two]
  have b1 : |rd32 (e.val * F.sin M.val)| ≤ 1 * (1 + 1 / 2 ^ 24) := rd32_abs_le (by
    rw [abs_mul]; nlinarith [hs M.val, abs_nonneg e.val, abs_nonneg (F.sin M.val)])
  have b2 : |rd32 (e.val * e.val)| ≤ 1 * (1 + 1 / 2 ^ 24) := rd32_abs_le (by
    rw [abs_mul]; nlinarith [abs_nonneg e.val])
  set w := F.sin (rd32 (2 * M.val)) with hw
  have hw1 : |w| ≤ 1 := hs _
  have b3 : |rd32 (rd32 (e.val * e.val) * w)| ≤ 2 * (1 + 1 / 2 ^ 24) := rd32_abs_le (by
    rw [abs_mul]
    nlinarith [abs_nonneg (rd32 (e.val * e.val)), abs_nonneg w])
  have b4 : |rd32 (rd32 (rd32 (e.val * e.val) * w) / 2)| ≤ 2 * (1 + 1 / 2 ^ 24) := rd32_abs_le (by
    rw [abs_div, abs_two]; linarith)
  rw [abs_le] at b1 b4
  have b5 : 70 * (1 - 1 / 2 ^ 24) ≤ rd32 (M.val + rd32 (e.val * F.sin M.val)) :=
    rd32_ge_rel (by norm_num) (by linarith [b1.1])
  have b6 := rd32_ge_rel (x := rd32 (M.val + rd32 (e.val * F.sin M.val))
    + rd32 (rd32 (rd32 (e.val * e.val) * w) / 2)) (b := 67) (by norm_num) (by linarith [b4.1])
  linarith

/-- The value of a rounding, to relative accuracy `2⁻²⁴`, from two-sided bounds on its argument. -/
theorem rd32_near {x b : ℝ} (h : |x| ≤ b) : |rd32 x - x| ≤ b / 2 ^ 24 :=
  (rd32_rel x).trans (by gcongr)

theorem sin_hundred : |Real.sin 100 + 0.506| ≤ 0.006 ∧ |Real.sin 200 + 0.873| ≤ 0.02 := by
  have p1 := Real.pi_gt_d6
  have p2 := Real.pi_lt_d6
  set x := 32 * Real.pi - 100 with hx
  have x1 : 0.5309 ≤ x := by rw [hx]; linarith
  have x2 : x ≤ 0.531 := by rw [hx]; linarith
  have e1 : Real.sin 100 = -Real.sin x := by
    have h := Real.sin_nat_mul_two_pi_sub x 16
    rw [← h]; congr 1; rw [hx]; push_cast; ring
  have e2 : Real.sin 200 = -Real.sin (2 * x) := by
    have h := Real.sin_nat_mul_two_pi_sub (2 * x) 32
    rw [← h]; congr 1; rw [hx]; push_cast; ring
  have x4 : x ^ 4 ≤ 0.0796 := by
    calc x ^ 4 ≤ 0.531 ^ 4 := by gcongr
      _ ≤ _ := by norm_num
  have x3 : x ^ 3 ≤ 0.14973 := by
    calc x ^ 3 ≤ 0.531 ^ 3 := by gcongr
      _ ≤ _ := by norm_num
  have x3' : 0.14963 ≤ x ^ 3 := by
    calc (0.14963 : ℝ) ≤ 0.5309 ^ 3 := by norm_num
      _ ≤ _ := by gcongr
  have x5 : x ^ 5 ≤ 0.05 := by
    calc x ^ 5 ≤ 0.531 ^ 5 := by gcongr
      _ ≤ _ := by norm_num
  have hxa : |x| ≤ 1 := by rw [abs_le]; constructor <;> linarith
  have hs := Real.sin_bound hxa
  have hc := Real.cos_bound hxa
  rw [abs_of_nonneg (by linarith : 0 ≤ x), abs_le] at hs hc
  have s1 : 0.5017 ≤ Real.sin x := by linarith [hs.1]
  have s2 : Real.sin x ≤ 0.5103 := by linarith [hs.2]
  have c1 : 0.8548 ≤ Real.cos x := by nlinarith [hc.1]
  have c2 : Real.cos x ≤ 0.8633 := by nlinarith [hc.2]
  rw [e1, e2, Real.sin_two_mul, abs_le, abs_le]
  refine ⟨⟨by linarith, by linarith⟩, by nlinarith, by nlinarith⟩

theorem rd32_abs_le_one {x : ℝ} (h : |x| ≤ 1) : |rd32 x| ≤ 1 := by
  rcases eq_or_ne x 0 with rfl | hx
  · simp [rd32_zero]
  rcases h.lt_or_eq with h | h
  · have hu := ulp32_pos x
    have hu1 := ulp32_le (n := 0) hx (by simpa using h)
    have hb := (ulp32_bounds hx).2
    have h1 : |x / ulp32 x| < 2 ^ 24 := by
      rw [abs_div, abs_of_pos hu, div_lt_iff₀ hu]; exact hb
    have h2 := rne_err (x / ulp32 x)
    have h3 : |(rne (x / ulp32 x) : ℝ)| < 2 ^ 24 + 1 := by
      calc |(rne (x / ulp32 x) : ℝ)| = |((rne (x / ulp32 x) : ℝ) - x / ulp32 x) + x / ulp32 x| := by
            ring_nf
        _ ≤ _ := abs_add_le _ _
        _ < _ := by linarith
    have h4 : |rne (x / ulp32 x)| < 2 ^ 24 + 1 := by exact_mod_cast h3
    have h5 : |rne (x / ulp32 x)| ≤ 2 ^ 24 := by omega
    have h6 : |(rne (x / ulp32 x) : ℝ)| ≤ 2 ^ 24 := by exact_mod_cast h5
    rw [rd32, abs_mul, abs_of_pos hu]
    norm_num at hu1 h6
    nlinarith [abs_nonneg (rne (x / ulp32 x) : ℝ)]
  · have hr : Rep32 x := by
      rcases abs_choice x with h' | h'
      · exact ⟨1, 0, by norm_num, by push_cast; rw [zpow_zero]; linarith⟩
      · exact ⟨-1, 0, by norm_num, by push_cast; rw [zpow_zero]; linarith⟩
    rw [hr.rd, h]

/-- The rounded evaluation of the starting value at `M = 100`, `e = 7/8`. -/
theorem start_hundred :
    |rd32 (rd32 (100 + rd32 (7 / 8 * rd32 (Real.sin 100)))
      + rd32 (rd32 (rd32 (7 / 8 * (7 / 8)) * rd32 (Real.sin 200)) / 2)) - 99.223| ≤ 0.014 := by
  obtain ⟨q1, q2⟩ := sin_hundred
  rw [abs_le] at q1 q2
  have r1 := rd32_near (x := Real.sin 100) (b := 1) (Real.abs_sin_le_one _)
  generalize rd32 (Real.sin 100) = a1 at r1 ⊢
  have r2 := rd32_near (x := Real.sin 200) (b := 1) (Real.abs_sin_le_one _)
  have t3 : |rd32 (Real.sin 200)| ≤ 1 := rd32_abs_le_one (Real.abs_sin_le_one _)
  generalize rd32 (Real.sin 200) = a2 at r2 t3 ⊢
  rw [abs_le] at r1 r2
  have r3 := rd32_near (x := 7 / 8 * a1) (b := 1) (by
    rw [abs_le]; constructor <;> linarith [r1.1, r1.2, q1.1, q1.2])
  generalize rd32 (7 / 8 * a1) = a3 at r3 ⊢
  have r4 := rd32_near (x := 7 / 8 * (7 / 8)) (b := 1) (by norm_num [abs_le])
  generalize rd32 (7 / 8 * (7 / 8)) = a4 at r4 ⊢
  rw [abs_le] at r3 r4
  have hp : |a4 * a2 - 49 / 64 * Real.sin 200| ≤ 3 / 2 ^ 24 := by
    rw [show a4 * a2 - 49 / 64 * Real.sin 200
      = (a4 - 7 / 8 * (7 / 8)) * a2 + 49 / 64 * (a2 - Real.sin 200) by ring]
    refine (abs_add_le _ _).trans ?_
    rw [abs_mul, abs_mul]
    have t1 : |a4 - 7 / 8 * (7 / 8)| ≤ 1 / 2 ^ 24 := abs_le.2 r4
    have t2 : |a2 - Real.sin 200| ≤ 1 / 2 ^ 24 := abs_le.2 r2
    have t4 : |(49 / 64 : ℝ)| ≤ 1 := by norm_num [abs_le]
    nlinarith [abs_nonneg (a4 - 7 / 8 * (7 / 8)), abs_nonneg (a2 - Real.sin 200), abs_nonneg a2]
  rw [abs_le] at hp
  have r5 := rd32_near (x := a4 * a2) (b := 1) (by
    rw [abs_le]; constructor <;> linarith [hp.1, hp.2, q2.1, q2.2])
  generalize rd32 (a4 * a2) = a5 at r5 ⊢
  rw [abs_le] at r5
  have r6 := rd32_near (x := a5 / 2) (b := 1) (by
    rw [abs_le]; constructor <;> linarith [hp.1, hp.2, q2.1, q2.2, r5.1, r5.2])
  generalize rd32 (a5 / 2) = a6 at r6 ⊢
  rw [abs_le] at r6
  have r7 := rd32_near (x := 100 + a3) (b := 128) (by
    rw [abs_le]; constructor <;> linarith [r3.1, r3.2, r1.1, r1.2, q1.1, q1.2])
  generalize rd32 (100 + a3) = a7 at r7 ⊢
  rw [abs_le] at r7
  have r8 := rd32_near (x := a7 + a6) (b := 128) (by
    rw [abs_le]
    constructor <;> linarith [r3.1, r3.2, r1.1, r1.2, q1.1, q1.2, r7.1, r7.2, r6.1, r6.2, r5.1, r5.2,
      hp.1, hp.2, q2.1, q2.2])
  generalize rd32 (a7 + a6) = E at r8 ⊢
  rw [abs_le] at r8
  rw [abs_le]
  constructor
  · linarith [r3.1, r1.1, q1.1, r7.1, r6.1, r5.1, hp.1, q2.1, r8.1]
  · linarith [r3.2, r1.2, q1.2, r7.2, r6.2, r5.2, hp.2, q2.2, r8.2]

/-- C49: what that costs. In binary32, `M = 100`, `e = 7/8`, default settings (or any iteration
limit): the value returned misses Kepler's equation by more than `0.03`, thirty thousand times the
tolerance. -/
theorem C49_f32_wrong (max_iter : ℕ) :
    ∃ E : Rnd F32, solve_kepler_elps (⟨100⟩ : Rnd F32) ⟨7 / 8⟩ defaultTol max_iter = some E ∧
      0.03 < E.val - 7 / 8 * Real.sin E.val - 100 := by
  refine ⟨_, C49_f32_large F32 rfl (fun x => ?_) _ _ max_iter (by norm_num) ?_, ?_⟩
  · exact rd32_abs_le_one (Real.abs_sin_le_one x)
  · norm_num [abs_le]
  simp only [elpsStart, Rnd.val_add, Rnd.val_mul, Rnd.val_div, Rnd.val_sin, Rnd.val_sq,
    Rnd.val_natCast]
  simp only [F32, Nat.cast_ofNat, rd32_two]
  rw [show rd32 (2 * 100) = 200 by
    have := (rep_int 200 (by norm_num)).rd
    norm_num at this ⊢; exact this]
  have hE := start_hundred
  generalize rd32 (rd32 (100 + rd32 (7 / 8 * rd32 (Real.sin 100)))
      + rd32 (rd32 (rd32 (7 / 8 * (7 / 8)) * rd32 (Real.sin 200)) / 2)) = E at hE ⊢
  rw [abs_le] at hE
  have E1 : 99.209 ≤ E := by linarith [hE.1]
  have E2 : E ≤ 99.237 := by linarith [hE.2]
  have p1 := Real.pi_gt_d6
  have p2 := Real.pi_lt_d6
  set z := Real.pi / 2 - (32 * Real.pi - E) with hz
  have z1 : 0.24 ≤ z := by rw [hz]; linarith
  have z2 : z ≤ 0.278 := by rw [hz]; linarith
  have hsin : Real.sin E = -Real.cos z := by
    rw [hz, Real.cos_pi_div_two_sub]
    have h := Real.sin_nat_mul_two_pi_sub (32 * Real.pi - E) 16
    rw [← h]; congr 1; push_cast; ring
  have hcos := Real.one_sub_sq_div_two_le_cos (x := z)
  rw [hsin]
  nlinarith

/-- The inputs of `C49_f32_wrong` are binary32 numbers. -/
example : Rep32 100 ∧ Rep32 (7 / 8) :=
  ⟨⟨100, 0, by norm_num, by norm_num⟩, ⟨7, -3, by norm_num, by norm_num⟩⟩

end Adx
