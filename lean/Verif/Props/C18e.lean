import Verif.Props.C18c
import Verif.Props.C63

/-! # C18, continued: close to eccentricity 1 the Newton iteration of `solve_kepler_elps` has two-cycles

For every `0.9973 ≤ e < 1` there is a mean anomaly below `1/40` for which the starting value and the first Newton
step exchange places for ever. -/

namespace Adx
open Set

section
variable {e M : ℝ} (h : 9973 / 10000 ≤ e) (h1 : e < 1) (hM0 : 0 ≤ M) (hMs : M ≤ 1 / 40)

include h h1 hM0 hMs in
theorem elpsStart_small : M ≤ elpsStart M e ∧ elpsStart M e ≤ 3 * M := by
  have hp := Real.pi_gt_three
  refine ⟨(elpsStart_range (by linarith) hM0 (by linarith) h1.le).1, ?_⟩
  have hs : 0 ≤ Real.sin M := Real.sin_nonneg_of_nonneg_of_le_pi hM0 (by linarith)
  have heq : elpsStart M e = M + e * Real.sin M * (1 + e * Real.cos M) := by
    simp only [elpsStart, sin_real, Nat.cast_ofNat, Real.sin_two_mul]; ring
  have hsM := Real.sin_le hM0
  have hc := Real.cos_le_one M
  have h2 : 1 + e * Real.cos M ≤ 2 := by nlinarith
  have h3 : e * Real.sin M ≤ M := by nlinarith
  have h4 : e * Real.sin M * (1 + e * Real.cos M) ≤ e * Real.sin M * 2 :=
    mul_le_mul_of_nonneg_left h2 (mul_nonneg (by linarith) hs)
  rw [heq]; linarith

include h h1 hM0 hMs in
/-- The residual and the slope at the starting value. -/
theorem elps_small_residual :
    kepler_equ_elps (elpsStart M e) e M ≤ M * (3 * (1 - e) + 9 / 2 * M ^ 2 - 1) ∧
    dE (elpsStart M e) e ≤ (1 - e) + 9 / 2 * M ^ 2 := by
  obtain ⟨hx1, hx3⟩ := elpsStart_small h h1 hM0 hMs
  set x := elpsStart M e
  have hx0 : 0 ≤ x := hM0.trans hx1
  have hx2 : x ^ 2 ≤ 9 * M ^ 2 := by nlinarith
  rw [kep_elps_eq, dE_eq]
  constructor
  · have hs : x - x ^ 3 / 6 ≤ Real.sin x := by
      rcases hx0.eq_or_lt with h | h
      · rw [← h]; simp
      · exact (Real.sin_gt_sub_cube h).le
    have h2 := mul_le_mul_of_nonneg_left hs (show 0 ≤ e by linarith)
    have h3 : x ^ 3 ≤ 27 * M ^ 3 := by
      have := pow_le_pow_left₀ hx0 hx3 3
      linarith [mul_pow 3 M 3]
    have h4 : e * x ^ 3 ≤ x ^ 3 := by
      have : 0 ≤ x ^ 3 := pow_nonneg hx0 3
      nlinarith
    have h5 : (1 - e) * x ≤ (1 - e) * (3 * M) := mul_le_mul_of_nonneg_left hx3 (by linarith)
    nlinarith
  · have hc := Real.one_sub_sq_div_two_le_cos (x := x)
    have h2 := mul_le_mul_of_nonneg_left hc (show 0 ≤ e by linarith)
    nlinarith [sq_nonneg x]

end

section
variable {e : ℝ} (h : 9973 / 10000 ≤ e) (h1 : e < 1)

include h h1 in
/-- The two points of the cycle. -/
theorem elps_cycle : ∃ M, 0 < M ∧ M ≤ 1 / 40 ∧ elpsStart M e + 3 < newtonElps M e (elpsStart M e) ∧
    newtonElps M e (newtonElps M e (elpsStart M e)) = elpsStart M e := by
  have hp := Real.pi_gt_d4
  have hp' := Real.pi_lt_d4
  have hpos : ∀ x, 0 < dE x e := fun x => by linarith [dE_ge (show 0 ≤ e by linarith) x]
  -- the largest mean anomaly considered
  set m := Real.sqrt (2 * (1 - e) / 9) with hm
  have hm2 : m ^ 2 = 2 * (1 - e) / 9 := Real.sq_sqrt (by linarith)
  have hm0 : 0 < m := Real.sqrt_pos.2 (by linarith)
  have hms : m ≤ 245 / 10000 := by
    rw [hm, Real.sqrt_le_left (by norm_num)]; norm_num; linarith
  have cx : Continuous fun M => elpsStart M e := by
    simp only [elpsStart, sin_real, Nat.cast_ofNat]; fun_prop
  have cN : ∀ {u : ℝ → ℝ}, Continuous u → Continuous fun M => newtonElps M e (u M) := fun {u} hu => by
    have : (fun M => newtonElps M e (u M)) = fun M => u M - (u M - e * Real.sin (u M) - M) / (1 - e * Real.cos (u M)) := by
      funext M; rw [newtonElps, kep_elps_eq, dE_eq]
    rw [this]
    refine hu.sub (Continuous.div (by fun_prop) (by fun_prop) fun M => ?_)
    rw [← dE_eq]; exact (hpos _).ne'
  set E1 : ℝ → ℝ := fun M => newtonElps M e (elpsStart M e) with hE1
  have cE1 : Continuous E1 := cN cx
  have hE10 : E1 0 = 0 := by
    simp only [hE1, newtonElps, kep_elps_eq]
    simp [elpsStart]
  have hE1m : 45 / 10 ≤ E1 m := by
    obtain ⟨hf, hd⟩ := elps_small_residual h h1 hm0.le (by linarith)
    obtain ⟨hx1, -⟩ := elpsStart_small h h1 hm0.le (by linarith)
    have h2 : 45 / 10 - m ≤ -kepler_equ_elps (elpsStart m e) e m / dE (elpsStart m e) e := by
      rw [le_div_iff₀ (hpos _)]
      have h3 : 1 - e = 9 / 2 * m ^ 2 := by linarith
      rw [h3] at hf hd
      have h4 : (45 / 10 - m) * (9 * m) ≤ 1 - 18 * m ^ 2 := by nlinarith
      have h5 := mul_le_mul_of_nonneg_left h4 hm0.le
      have h6 := mul_le_mul_of_nonneg_left hd (show 0 ≤ 45 / 10 - m by linarith)
      nlinarith
    simp only [hE1, newtonElps]
    rw [neg_div] at h2
    linarith
  obtain ⟨MT, hMT, hMT'⟩ := intermediate_value_Icc hm0.le cE1.continuousOn
    (show (45 / 10 : ℝ) ∈ Icc (E1 0) (E1 m) from ⟨by rw [hE10]; norm_num, hE1m⟩)
  obtain ⟨Mp, hMp, hMp'⟩ := intermediate_value_Icc hMT.1 cE1.continuousOn
    (show Real.pi ∈ Icc (E1 0) (E1 MT) from ⟨by rw [hE10]; exact Real.pi_pos.le, by rw [hMT']; linarith⟩)
  have hMp0 : 0 < Mp := by
    rcases hMp.1.eq_or_lt with h | h
    · rw [← h, hE10] at hMp'; linarith
    · exact h
  have hg := (cN cE1).sub cx
  have hMs : ∀ {M}, M ∈ Icc Mp MT → 0 ≤ M ∧ M ≤ 1 / 40 := fun hM =>
    ⟨hMp0.le.trans hM.1, by linarith [hM.2, hMT.2]⟩
  have hgT : newtonElps MT e (E1 MT) - elpsStart MT e ≤ 0 := by
    have := (elpsStart_small h h1 (hMs ⟨hMp.2, le_rfl⟩).1 (hMs ⟨hMp.2, le_rfl⟩).2).1
    suffices newtonElps MT e (E1 MT) ≤ MT by linarith
    rw [hMT', newtonElps, sub_le_comm, le_div_iff₀ (hpos _), kep_elps_eq, dE_eq]
    set y := 3 * Real.pi / 2 - 45 / 10 with hy
    have hy0 : 0 ≤ y := by linarith
    have hT : (45 / 10 : ℝ) = y + Real.pi + Real.pi / 2 - 2 * y := by rw [hy]; ring
    have hc : Real.cos (45 / 10) = -Real.sin y := by
      rw [show (45 / 10 : ℝ) = Real.pi / 2 - y + Real.pi by rw [hy]; ring, Real.cos_add_pi, Real.cos_pi_div_two_sub]
    have hs : Real.sin (45 / 10) = -Real.cos y := by
      rw [show (45 / 10 : ℝ) = Real.pi / 2 - y + Real.pi by rw [hy]; ring, Real.sin_add_pi, Real.sin_pi_div_two_sub]
    rw [hc, hs]
    have hsy := Real.sin_le hy0
    have hcy := Real.one_sub_sq_div_two_le_cos (x := y)
    have hyl : y ≤ 2125 / 10000 := by rw [hy]; linarith
    have h2 : 0 ≤ Real.cos y - 45 / 10 * Real.sin y := by nlinarith
    have h3 := mul_le_mul_of_nonneg_left h2 (show 0 ≤ e by linarith)
    have hsy0 : 0 ≤ Real.sin y := Real.sin_nonneg_of_nonneg_of_le_pi hy0 (by linarith)
    have h4 : 0 ≤ MT * (e * Real.sin y) := mul_nonneg hMT.1 (mul_nonneg (by linarith) hsy0)
    nlinarith
  have hgp : 0 ≤ newtonElps Mp e (E1 Mp) - elpsStart Mp e := by
    have h3 := hMs ⟨le_rfl, hMp.2⟩
    have := (elpsStart_small h h1 h3.1 h3.2).2
    suffices 1 ≤ newtonElps Mp e (E1 Mp) by linarith [h3.2]
    rw [hMp', newtonElps, le_sub_comm, div_le_iff₀ (hpos _), kep_elps_eq, dE_eq, Real.sin_pi, Real.cos_pi]
    nlinarith
  obtain ⟨M, hM, hcyc⟩ := intermediate_value_Icc' hMp.2 hg.continuousOn
    (show (0 : ℝ) ∈ Icc _ _ from ⟨hgT, hgp⟩)
  have hcyc : newtonElps M e (E1 M) = elpsStart M e := sub_eq_zero.1 hcyc
  obtain ⟨hM0, hM40⟩ := hMs hM
  have hMpos : 0 < M := hMp0.trans_le hM.1
  obtain ⟨hx1, hx3⟩ := elpsStart_small h h1 hM0 hM40
  obtain ⟨hf, -⟩ := elps_small_residual h h1 hM0 hM40
  have hfneg : kepler_equ_elps (elpsStart M e) e M < 0 := by
    have : 3 * (1 - e) + 9 / 2 * M ^ 2 - 1 < 0 := by nlinarith
    nlinarith
  refine ⟨M, hMpos, hM40, ?_, hcyc⟩
  have hlt : elpsStart M e < E1 M := by
    have := div_neg_of_neg_of_pos hfneg (hpos (elpsStart M e))
    simp only [hE1, newtonElps]; linarith
  have hE1p : Real.pi < E1 M := by
    by_contra hle
    push Not at hle
    obtain ⟨ξ, hξ, hslope⟩ := exists_hasDerivAt_eq_slope (fun E => kepler_equ_elps E e M) (fun E => dE E e) hlt
      (continuous_iff_continuousAt.2 fun s => (hasDerivAt_elps s e M).continuousAt).continuousOn
      (fun s _ => hasDerivAt_elps s e M)
    have h2 := dE_mono (show 0 ≤ e by linarith) (hM0.trans (hx1.trans hξ.1.le)) hξ.2.le hle
    rw [hslope, div_le_iff₀ (by linarith)] at h2
    have h3 : kepler_equ_elps (E1 M) e M = dE (E1 M) e * (E1 M - elpsStart M e) := by
      have h4 := hcyc
      rw [newtonElps, sub_eq_iff_eq_add, ← sub_eq_iff_eq_add', eq_div_iff (hpos _).ne'] at h4
      linarith
    linarith
  linarith

/-- The iterates alternate. -/
theorem cycle_iterate {N : ℝ → ℝ} {x : ℝ} (hx : N (N x) = x) (n : ℕ) : N^[n] x = if Even n then x else N x := by
  induction n with
  | zero => simp
  | succ n ih =>
    rw [Function.iterate_succ_apply', ih]
    by_cases hn : Even n
    · simp [hn, Nat.even_add_one]
    · simp [hn, Nat.even_add_one, hx]

include h h1 in
/-- C18, refuted for every eccentricity in `[0.9973, 1)`: there is a mean anomaly for which, whatever the tolerance
below 3 and whatever the iteration limit, the solver uses all its iterations and returns one of two values that are
more than 3 apart, the starting value or its Newton step according to the parity of the limit. Neither solves
Kepler's equation. -/
theorem C18_elps_cycle_refuted : ∃ M, 0 < M ∧ M ≤ 1 / 40 ∧ ∃ E0 E1 : ℝ, E0 + 3 < E1 ∧
    (∀ tol, 0 < tol → tol ≤ 3 → ∀ n, solve_kepler_elps M e tol n = some (if Even n then E0 else E1)) ∧
    3 * (1 - e) ≤ |E0 - e * Real.sin E0 - M| ∧ 3 * (1 - e) ≤ |E1 - e * Real.sin E1 - M| := by
  obtain ⟨M, hM0, hM1, hgap, hcyc⟩ := elps_cycle h h1
  have hge : ∀ x, 1 - e ≤ dE x e := dE_ge (show 0 ≤ e by linarith)
  have hpos : ∀ x, 0 < dE x e := fun x => by linarith [hge x]
  refine ⟨M, hM0, hM1, elpsStart M e, newtonElps M e (elpsStart M e), hgap, fun tol ht0 ht3 n => ?_, ?_, ?_⟩
  · rw [← cycle_iterate hcyc]
    refine elps_of_tests le_rfl (fun j _ => ?_) (fun hlt => absurd hlt (lt_irrefl _))
    rw [lt_real, abs_real, decide_eq_true_iff]
    cases j with
    | zero =>
      simp only [prevOf, Function.iterate_zero, id, Nat.cast_ofNat]
      rw [sub_add_cancel_left, abs_neg, abs_of_pos (by linarith)]; linarith
    | succ j =>
      simp only [prevOf, cycle_iterate hcyc]
      by_cases hj : Even j
      · rw [if_pos hj, if_neg (by simpa [Nat.even_add_one] using hj), abs_of_pos (by linarith)]; linarith
      · rw [if_neg hj, if_pos (by simpa [Nat.even_add_one] using hj), abs_sub_comm, abs_of_pos (by linarith)]; linarith
  · have h2 : kepler_equ_elps (elpsStart M e) e M = -(dE (elpsStart M e) e * (newtonElps M e (elpsStart M e) - elpsStart M e)) := by
      rw [newtonElps]
      have := (hpos (elpsStart M e)).ne'
      field_simp; ring
    rw [← kep_elps_eq, h2, abs_neg, abs_of_pos (mul_pos (hpos _) (by linarith))]
    have := hge (elpsStart M e)
    nlinarith
  · set y := newtonElps M e (elpsStart M e)
    have h2 : kepler_equ_elps y e M = dE y e * (y - elpsStart M e) := by
      rw [← hcyc]
      rw [newtonElps]
      have := (hpos y).ne'
      field_simp; ring
    rw [← kep_elps_eq, h2, abs_of_pos (mul_pos (hpos _) (by linarith))]
    have := hge y
    nlinarith

end

/-- The default call at `e = 0.9992`. -/
example : ∃ M, 0 < M ∧ M ≤ 1 / 40 ∧ ∃ E, solve_kepler_elps M (0.9992 : ℝ) = some E ∧
    (3 * (1 - 0.9992) : ℝ) ≤ |E - 0.9992 * Real.sin E - M| := by
  obtain ⟨M, h0, h1, E0, E1, -, hs, hr, -⟩ := C18_elps_cycle_refuted (e := 0.9992) (by norm_num) (by norm_num)
  refine ⟨M, h0, h1, E0, ?_, hr⟩
  have := hs defaultTol (by simp [defaultTol]) (by simp [defaultTol]; norm_num) 20
  simpa [show Even 20 by decide] using this

end Adx
