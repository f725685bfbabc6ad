import Verif.Props.C18d

/-! # C18, continued: no iteration limit suffices for hyperbolas

For every limit `n` there is one `N` for which the solver still has a residual of at least 7/10 after `n` steps, for
every eccentricity between 1 and `1 + 1 / (8 (n + 1)²)`. -/

namespace Adx
open Set

/-- A step from above 1 moves back by at most 1. -/
theorem hypb_newton_slow_one {N e H : ℝ} (hN : 0 ≤ N) (he : 1 ≤ e) (hH : 1 < H) : H - 1 ≤ newtonHypb N e H := by
  have hd : 0 < dH H e := by
    rw [dH_eq]
    have : 1 < Real.cosh H := Real.one_lt_cosh.2 (by linarith)
    nlinarith
  have : kepler_equ_hypb H e N / dH H e ≤ 1 := by
    rw [div_le_iff₀ hd, kep_hypb_eq, dH_eq]
    have := (Real.sinh_lt_cosh H).le
    nlinarith
  rw [newtonHypb]; linarith

/-- The residual above 1.9. -/
theorem hypb_residual_above {N e H : ℝ} (hN : N ≤ 1 / 8) (he : 1 ≤ e) (hH : 19 / 10 ≤ H) : 7 / 10 ≤ kepler_equ_hypb H e N := by
  have hs : H + 85 / 100 ≤ Real.sinh H := by
    have h1 := Real.sinh_two_mul (H / 2)
    have h2 : H / 2 ≤ Real.sinh (H / 2) := Real.self_le_sinh_iff.2 (by linarith)
    have h3 : 1 + (H / 2) ^ 2 / 2 ≤ Real.cosh (H / 2) := by
      have h1 := Real.cosh_two_mul (H / 4)
      rw [show 2 * (H / 4) = H / 2 by ring, Real.cosh_sq] at h1
      have h2 : H / 4 ≤ Real.sinh (H / 4) := Real.self_le_sinh_iff.2 (by linarith)
      nlinarith
    rw [show 2 * (H / 2) = H by ring] at h1
    have h4 := mul_le_mul h2 h3 (by positivity) (by linarith)
    nlinarith
  rw [kep_hypb_eq]
  nlinarith

section
variable {N e : ℝ} (hN0 : 0 < N) (hN8 : N ≤ 1 / 8) (he : 1 < e) (he' : e - 1 ≤ 2 * N ^ 2)
include hN0 hN8 he he'

/-- The starting value and the first step. -/
theorem hypb_first_far : N / 2 ≤ -kepler_equ_hypb (hypbStart N e) e N ∧
    1 / (4 * N) - 1 / 10 ≤ newtonHypb N e (hypbStart N e) := by
  have hH0 : hypbStart N e = Real.arsinh (2 * N / e) := hypbStart_eq N e
  set u := 2 * N / e with hu
  have hu0 : 0 < u := by positivity
  have heu : e * u = 2 * N := by rw [hu]; field_simp
  have hu2 : u ≤ 2 * N := by nlinarith
  have hul : 2 * N * (1 - 2 * N ^ 2) ≤ u := by
    have : 1 - 2 * N ^ 2 ≤ 1 / e := by
      rw [le_div_iff₀ (by linarith)]; nlinarith
    calc 2 * N * (1 - 2 * N ^ 2) ≤ 2 * N * (1 / e) := mul_le_mul_of_nonneg_left this (by linarith)
      _ = u := by rw [hu]; ring
  set x := hypbStart N e
  have hsinh : Real.sinh x = u := by rw [hH0, Real.sinh_arsinh]
  have hcosh : Real.cosh x = Real.sqrt (1 + u ^ 2) := by rw [hH0, Real.cosh_arsinh]
  have hx0 : 0 ≤ x := by rw [hH0]; exact Real.arsinh_nonneg_iff.2 hu0.le
  have hc : Real.cosh x ≤ 1 + u ^ 2 / 2 := by
    rw [hcosh]; refine Real.sqrt_le_iff.2 ⟨by positivity, ?_⟩
    nlinarith [sq_nonneg (u ^ 2)]
  -- `sinh x ≤ x cosh x`
  have hxl : u ≤ x * (1 + u ^ 2 / 2) := by
    rw [← hsinh]
    refine (sinh_le_self_mul_cosh hx0).trans ?_
    rw [hsinh]
    exact mul_le_mul_of_nonneg_left hc hx0
  have hxl' : u * (1 - u ^ 2 / 2) ≤ x := by
    have h1 : u * (1 - u ^ 2 / 2) ≤ x * (1 + u ^ 2 / 2) * (1 - u ^ 2 / 2) :=
      mul_le_mul_of_nonneg_right hxl (by nlinarith)
    have h2 : 0 ≤ x * u ^ 4 := by positivity
    nlinarith
  have hx2 : 2 * N * (1 - 4 * N ^ 2) ≤ x := by
    refine le_trans ?_ hxl'
    have h3 : u ^ 2 ≤ 4 * N ^ 2 := by nlinarith
    have h4 : 2 * N * (1 - 2 * N ^ 2) * (1 - 2 * N ^ 2) ≤ u * (1 - u ^ 2 / 2) :=
      mul_le_mul hul (by linarith) (by nlinarith) hu0.le
    have : 0 ≤ N * N ^ 4 := by positivity
    nlinarith
  have hres : kepler_equ_hypb x e N = N - x := by rw [kep_hypb_eq, hsinh, heu]; ring
  have hNsq : N ^ 2 ≤ 1 / 64 := by nlinarith
  have hdpos : 0 < dH x e := by linarith [dH_ge (by linarith : 0 ≤ e) x]
  have hd : dH x e ≤ 4 * N ^ 2 := by
    rw [dH_eq]
    have h1 := mul_le_mul_of_nonneg_left hc (by linarith : 0 ≤ e)
    nlinarith
  constructor
  · rw [hres]; nlinarith
  · rw [newtonHypb, hres]
    have h1 : (1 - 8 * N ^ 2) / (4 * N) ≤ (x - N) / dH x e := by
      rw [div_le_div_iff₀ (by linarith) hdpos]
      have h2 : N * (1 - 8 * N ^ 2) ≤ x - N := by nlinarith
      have h3 := mul_le_mul_of_nonneg_left hd (show 0 ≤ 1 - 8 * N ^ 2 by linarith)
      have h4 := mul_le_mul_of_nonneg_right h2 (show 0 ≤ 4 * N by linarith)
      nlinarith
    have h5 : (1 - 8 * N ^ 2) / (4 * N) = 1 / (4 * N) - 2 * N := by field_simp; ring
    have h6 : (N - x) / dH x e = -((x - N) / dH x e) := by ring
    have h7 : N * 2 - 8 * N ^ 3 ≤ x := by nlinarith
    rw [h6]
    have h8 : N ^ 3 ≤ 1 / 512 := by nlinarith
    linarith

end

/-- C18 refuted for hyperbolas whatever the iteration limit: with at most `n` iterations the solver fails at
`N = 1 / (4 (n + 1))` for every eccentricity in `(1, 1 + 1/(8 (n + 1)²)]` and every tolerance below `1/(8 (n + 1))`. The
returned value is at least 1.9 and leaves a residual of at least 0.7; the exact root is below 1.6. -/
theorem C18_hypb_slow_refuted {e tol : ℝ} {n : ℕ} (hn : 1 ≤ n) (he : 1 < e) (he' : e - 1 ≤ 1 / (8 * ((n : ℝ) + 1) ^ 2))
    (htol : tol < 1 / (8 * ((n : ℝ) + 1))) :
    ∃ H, solve_kepler_hypb (1 / (4 * ((n : ℝ) + 1))) e tol n = some H ∧ 19 / 10 ≤ H ∧
      7 / 10 ≤ e * Real.sinh H - H - 1 / (4 * ((n : ℝ) + 1)) ∧
      ∀ Hs, e * Real.sinh Hs - Hs = 1 / (4 * ((n : ℝ) + 1)) → Hs < 8 / 5 := by
  have hn1 : (1 : ℝ) ≤ n := by exact_mod_cast hn
  set N : ℝ := 1 / (4 * ((n : ℝ) + 1)) with hN
  have hN0 : 0 < N := by positivity
  have hN8 : N ≤ 1 / 8 := by
    rw [hN]; exact one_div_le_one_div_of_le (by norm_num) (by linarith)
  have hNN : 4 * N = 1 / ((n : ℝ) + 1) := by rw [hN]; field_simp
  have hinv : 1 / (4 * N) = n + 1 := by rw [hNN, one_div_one_div]
  have he2 : e - 1 ≤ 2 * N ^ 2 := by
    refine he'.trans (le_of_eq ?_)
    rw [hN]; field_simp; norm_num
  have htol' : tol < N / 2 := by
    refine htol.trans_eq ?_
    rw [hN]; field_simp; norm_num
  obtain ⟨hr, hf⟩ := hypb_first_far hN0 hN8 he he2
  rw [hinv] at hf
  have hiter : ∀ j : ℕ, j + 1 ≤ n → (n : ℝ) + 9 / 10 - j ≤ (newtonHypb N e)^[j + 1] (hypbStart N e) := by
    intro j
    induction j with
    | zero => intro _; simp only [zero_add, Function.iterate_one, Nat.cast_zero]; linarith
    | succ j ih =>
      intro hj
      have h2 := ih (by omega)
      have h3 : (j : ℝ) + 2 ≤ n := by exact_mod_cast hj
      rw [Function.iterate_succ_apply']
      have := hypb_newton_slow_one (N := N) (e := e) hN0.le he.le (H := (newtonHypb N e)^[j + 1] (hypbStart N e)) (by linarith)
      push_cast
      linarith
  have hlarge : ∀ j : ℕ, j + 1 ≤ n → 19 / 10 ≤ (newtonHypb N e)^[j + 1] (hypbStart N e) := fun j hj => by
    have h3 : (j : ℝ) + 1 ≤ n := by exact_mod_cast hj
    linarith [hiter j hj]
  obtain ⟨k, hk, -, hs, -, hstop⟩ := C13_hypb N e tol n
  have hkn : k = n := by
    by_contra h
    have hst := hstop (lt_of_le_of_ne hk h)
    simp only [lt_real, abs_real, decide_eq_false_iff_not, not_lt] at hst
    rcases k with _ | k
    · have := (neg_le_abs _).trans hst
      simp only [Function.iterate_zero, id_eq] at this
      linarith
    · have h2 := (le_abs_self _).trans hst
      have h3 := hypb_residual_above hN8 he.le (hlarge k (by omega))
      linarith
  rw [hkn] at hs
  obtain ⟨m, rfl⟩ : ∃ m, n = m + 1 := ⟨n - 1, by omega⟩
  refine ⟨_, hs, hlarge m le_rfl, ?_, fun Hs hHs => ?_⟩
  · have := hypb_residual_above hN8 he.le (hlarge m le_rfl)
    rwa [kep_hypb_eq] at this
  · by_contra hge
    push Not at hge
    have h1 := Real.sinh_two_mul (Hs / 2)
    have h2 : Hs / 2 ≤ Real.sinh (Hs / 2) := Real.self_le_sinh_iff.2 (by linarith)
    have h3 : 1 + (Hs / 2) ^ 2 / 2 ≤ Real.cosh (Hs / 2) := by
      have h1 := Real.cosh_two_mul (Hs / 4)
      rw [show 2 * (Hs / 4) = Hs / 2 by ring, Real.cosh_sq] at h1
      have h2 : Hs / 4 ≤ Real.sinh (Hs / 4) := Real.self_le_sinh_iff.2 (by linarith)
      nlinarith
    rw [show 2 * (Hs / 2) = Hs by ring] at h1
    have h4 := mul_le_mul h2 h3 (by positivity) (by linarith)
    have h5 : Hs + 1 / 2 ≤ Real.sinh Hs := by nlinarith
    nlinarith

/-- The default call fails for every eccentricity in `(1, 1.000048]`, at `N = 1/204`. -/
theorem C18_hypb_default_near_refuted {e : ℝ} (he : 1 < e) (he' : e ≤ 1.000048) :
    ∃ H, solve_kepler_hypb (1 / 204) e = some H ∧ 7 / 10 ≤ e * Real.sinh H - H - 1 / 204 := by
  obtain ⟨H, h1, -, h2, -⟩ := C18_hypb_slow_refuted (e := e) (tol := defaultTol) (n := 50) (by norm_num) he
    (by norm_num; linarith) (by norm_num [defaultTol])
  norm_num at h1 h2
  exact ⟨H, by norm_num; exact h1, by norm_num; exact h2⟩

end Adx
