import Verif.Props.C14
import Verif.Props.C67

/-! # C68: what a stop of the solver loops certifies in rounded arithmetic

C14, C15 and C16 say how accurate the returned root is if the loop runs in exact arithmetic. Here the loop itself, its
stopping test and the equation it evaluates are all rounded (any format and library meeting the standard model). The
exact root is that of the real equation at the floating-point inputs. -/

namespace Adx
open Spec

section
variable {F : Fp} {u L : ℝ} (hF : StdModel F u L)
include hF

/-- A rounded number of size at most `t` comes from an exact one of size at most `t/(1-u)`. -/
theorem abs_le_of_rd {x t : ℝ} (h : |F.rd x| ≤ t) : |x| ≤ t / (1 - u) := by
  have h1 := hF.rd x
  have h2 := hF.lt_one
  rw [le_div_iff₀ (by linarith)]
  have h3 : |x| ≤ |F.rd x| + |F.rd x - x| := by
    calc |x| = |F.rd x - (F.rd x - x)| := by ring_nf
      _ ≤ _ := abs_sub _ _
  linarith

/-- The error of a rounding, relative to the rounded number. -/
theorem rd_err' (x : ℝ) : |F.rd x - x| ≤ u / (1 - u) * |F.rd x| := by
  have h1 := abs_le_of_rd hF (x := x) le_rfl
  have h2 := hF.rd x
  calc |F.rd x - x| ≤ u * |x| := h2
    _ ≤ u * (|F.rd x| / (1 - u)) := by gcongr; exact hF.u_pos.le
    _ = _ := by ring

/-- C68, hyperbolic: if the loop stops on its test, the returned value is within
`(tol + γ_{L+3} (e |sinh H| + |H| + |N|)) / (e - 1)` of the exact hyperbolic anomaly. -/
theorem C68_hypb {N e tol : Rnd F} (h1 : 1 < e.val) {max_iter k : ℕ} {H Hp : Rnd F}
    (hrun : hypbRun N e tol max_iter = some (k, H, Hp)) (hk : k < max_iter) :
    solve_kepler_hypb N e tol max_iter = some H ∧
    ∀ Hs, kepler_equ_hypb Hs e.val N.val = 0 →
      |H.val - Hs| ≤ (tol.val + gam u (L + 3) * (e.val * |Real.sinh H.val| + |H.val| + |N.val|)) / (e.val - 1) := by
  obtain ⟨k', -, hr, hs, -, hstop⟩ := C13_hypb N e tol max_iter
  rw [hr] at hrun
  simp only [Option.some.injEq, Prod.mk.injEq] at hrun
  obtain ⟨rfl, rfl, rfl⟩ := hrun
  have hst := hstop hk
  simp only [Rnd.lt_rnd, Rnd.val_abs, decide_eq_false_iff_not, not_lt] at hst
  refine ⟨hs, fun Hs hHs => ?_⟩
  set H := (newtonHypb N e)^[k'] (hypbStart N e)
  have hb := C67_kepler_hypb hF H e N
  rw [abs_mul, abs_of_pos (by linarith : 0 < e.val)] at hb
  have := abs_sub_le_of_slope (by linarith : 0 < e.val - 1) (fun H => hasDerivAt_hypb H e.val N.val)
    (dH_ge (by linarith)) H.val Hs
  rw [hHs, sub_zero] at this
  refine this.trans (div_le_div_of_nonneg_right ?_ (by linarith))
  have h3 : |kepler_equ_hypb H.val e.val N.val| ≤ |(kepler_equ_hypb H e N).val| +
      |(kepler_equ_hypb H e N).val - kepler_equ_hypb H.val e.val N.val| := by
    calc |kepler_equ_hypb H.val e.val N.val|
        = |(kepler_equ_hypb H e N).val - ((kepler_equ_hypb H e N).val - kepler_equ_hypb H.val e.val N.val)| := by ring_nf
      _ ≤ _ := abs_sub _ _
  linarith

/-- C68, elliptic: if the loop stops on its test after at least one step, the returned value is off by at most
`e τ²/2 / (1 - e)` (as in exact arithmetic, `τ` being the tolerance) plus rounding errors of the evaluation of the
equation, of the Newton quotient and of the update. -/
theorem C68_elps {M e tol : Rnd F} (h0 : 0 ≤ e.val) (h1 : e.val < 1) {max_iter k : ℕ} {E Ep : Rnd F}
    (hrun : elpsRun M e tol max_iter = some (k + 1, E, Ep)) (hk : k + 1 < max_iter)
    (hs : 5 * ((1 + e.val) / (1 - e.val) * (L + 2) * u) ≤ 1) :
    let τ := tol.val / (1 - u)
    let ν := u / (1 - u) * |E.val|
    let κ := 2 * ((1 + e.val) / (1 - e.val)) * (L + 2) + 1
    solve_kepler_elps M e tol max_iter = some E ∧
    ∀ Es, kepler_equ_elps Es e.val M.val = 0 →
      |E.val - Es| ≤ (e.val * τ ^ 2 / 2 + gam u (L + 3) * (|E.val| + τ + e.val + |M.val|)
        + (1 + e.val) * (gam u κ * (τ + ν) + ν)) / (1 - e.val) := by
  intro τ ν κ
  have hu0 := hF.u_pos
  have hu1 := hF.lt_one
  have hL1 := hF.one_le
  have hL2 := hF.le_hundred
  obtain ⟨k', -, hr, hsol, -, hstop⟩ := C13_elps M e tol max_iter
  rw [hr] at hrun
  simp only [Option.some.injEq, Prod.mk.injEq] at hrun
  obtain ⟨rfl, rfl, rfl⟩ := hrun
  have hst := hstop hk
  simp only [Rnd.lt_rnd, Rnd.val_abs, Rnd.val_sub, decide_eq_false_iff_not, not_lt] at hst
  refine ⟨hsol, fun Es hEs => ?_⟩
  simp only [prevOf, Function.iterate_succ_apply'] at hst
  simp only [ν, Function.iterate_succ_apply']
  set x := (newtonElps M e)^[k] (elpsStart M e) with hx
  set y := newtonElps M e x with hy
  set f := kepler_equ_elps x e M with hf
  set d := dE x e with hd
  have hstep : |y.val - x.val| ≤ τ := abs_le_of_rd hF hst
  have hτ : 0 ≤ τ := (abs_nonneg _).trans hstep
  -- the exact slope
  have hd1 : 1 - e.val ≤ dE x.val e.val := dE_ge h0 x.val
  have hd0 : 0 < dE x.val e.val := by linarith
  have hdval : dE x.val e.val = 1 - e.val * Real.cos x.val := dE_eq _ _
  have hd2 : dE x.val e.val ≤ 1 + e.val := by
    rw [hdval]
    have := Real.neg_one_le_cos x.val
    nlinarith
  -- the computed slope
  have hdw : Within u (2 * ((1 + e.val) / (1 - e.val)) * (L + 2)) d.val (dE x.val e.val) := by
    refine (near_dE hF x e).within hF (by linarith) hd0.ne' ?_ (by linarith)
    rw [abs_of_pos hd0, abs_mul, abs_of_nonneg h0]
    have hc : e.val * |Real.cos x.val| ≤ e.val := by
      have := Real.abs_cos_le_one x.val
      nlinarith
    have hpos : 0 < 1 - e.val := by linarith
    calc 1 + e.val * |Real.cos x.val| ≤ 1 + e.val := by linarith
      _ = (1 + e.val) / (1 - e.val) * (1 - e.val) := by field_simp
      _ ≤ _ := by gcongr
  -- the quotient and the update
  set q : Rnd F := f / d with hq
  have hyv : y.val = F.rd (x.val - q.val) := rfl
  have hδ : |y.val - (x.val - q.val)| ≤ u / (1 - u) * |y.val| := by rw [hyv]; exact rd_err' hF _
  set δ := y.val - (x.val - q.val) with hδd
  set ν' := u / (1 - u) * |y.val| with hν
  have hν0 : 0 ≤ ν' := (abs_nonneg _).trans hδ
  have hqa : |q.val| ≤ τ + ν' := by
    have : q.val = δ - (y.val - x.val) := by rw [hδd]; ring
    rw [this]
    exact (abs_sub _ _).trans (by linarith)
  have hfq : Within u κ f.val (dE x.val e.val * q.val) := by
    have hw : Within u (0 + 0 + 1) q.val (f.val / d.val) := (Within.ex f).div hF (.ex d)
    obtain ⟨θ, hθ, hqe⟩ := hw
    obtain ⟨φ, hφ, hde⟩ := hdw
    refine ⟨φ - θ, ?_, ?_⟩
    · have := abs_sub φ θ
      have e1 : κ * -Real.log (1 - u) = 2 * ((1 + e.val) / (1 - e.val)) * (L + 2) * -Real.log (1 - u)
          + (0 + 0 + 1) * -Real.log (1 - u) := by ring
      rw [e1]; linarith
    · rw [hqe, hde, Real.exp_sub]
      have := Real.exp_pos φ
      have := Real.exp_pos θ
      field_simp
  have hκ1 : 1 ≤ κ := by
    have : 0 ≤ (1 + e.val) / (1 - e.val) := div_nonneg (by linarith) (by linarith)
    have : 0 ≤ 2 * ((1 + e.val) / (1 - e.val)) * (L + 2) := by positivity
    linarith
  have hκu : κ * u < 1 := by
    have e1 : κ * u = 2 * ((1 + e.val) / (1 - e.val) * (L + 2) * u) + u := by ring
    rw [e1]; linarith [hF.u_small]
  have hg0 : 0 ≤ gam u κ := by unfold gam; exact div_nonneg (by nlinarith) (by linarith)
  have hB : |f.val - dE x.val e.val * q.val| ≤ (1 + e.val) * (gam u κ * (τ + ν')) := by
    refine (hfq.bound hF hκ1 hκu).trans ?_
    rw [abs_mul, abs_of_pos hd0]
    calc gam u κ * (dE x.val e.val * |q.val|) ≤ gam u κ * ((1 + e.val) * (τ + ν')) := by gcongr
      _ = _ := by ring
  have hA : |f.val - kepler_equ_elps x.val e.val M.val| ≤ gam u (L + 3) * (|y.val| + τ + e.val + |M.val|) := by
    refine (C67_kepler_elps hF x e M).trans ?_
    have hgL : 0 ≤ gam u (L + 3) := by
      unfold gam
      exact div_nonneg (by nlinarith) (by linarith [ku_lt hF (k := L + 3) (by linarith)])
    refine mul_le_mul_of_nonneg_left ?_ hgL
    have hxa : |x.val| ≤ |y.val| + τ := by
      calc |x.val| = |y.val - (y.val - x.val)| := by ring_nf
        _ ≤ |y.val| + |y.val - x.val| := abs_sub _ _
        _ ≤ _ := by linarith
    have hsa : |e.val * Real.sin x.val| ≤ e.val := by
      rw [abs_mul, abs_of_nonneg h0]
      have := Real.abs_sin_le_one x.val
      nlinarith
    linarith
  -- the residual of the returned value
  have hT := sin_taylor x.val (y.val - x.val)
  rw [show x.val + (y.val - x.val) = y.val by ring] at hT
  have hres : kepler_equ_elps y.val e.val M.val
      = (f.val - dE x.val e.val * q.val) - (f.val - kepler_equ_elps x.val e.val M.val) + dE x.val e.val * δ
        - e.val * (Real.sin y.val - Real.sin x.val - (y.val - x.val) * Real.cos x.val) := by
    rw [kep_elps_eq, kep_elps_eq, hδd, hdval]; ring
  have hsq : (y.val - x.val) ^ 2 ≤ τ ^ 2 := by
    rw [← sq_abs]; exact pow_le_pow_left₀ (abs_nonneg _) hstep 2
  have hC : |dE x.val e.val * δ| ≤ (1 + e.val) * ν' := by
    rw [abs_mul, abs_of_pos hd0]; gcongr
  have hD : |e.val * (Real.sin y.val - Real.sin x.val - (y.val - x.val) * Real.cos x.val)| ≤ e.val * τ ^ 2 / 2 := by
    rw [abs_mul, abs_of_nonneg h0]
    have := mul_le_mul_of_nonneg_left hT h0
    nlinarith
  have hfin : |kepler_equ_elps y.val e.val M.val| ≤ e.val * τ ^ 2 / 2 + gam u (L + 3) * (|y.val| + τ + e.val + |M.val|)
        + (1 + e.val) * (gam u κ * (τ + ν') + ν') := by
    rw [hres]
    refine (abs_sub _ _).trans ?_
    have h4 := (abs_add_le (f.val - dE x.val e.val * q.val - (f.val - kepler_equ_elps x.val e.val M.val))
      (dE x.val e.val * δ))
    have h5 := abs_sub (f.val - dE x.val e.val * q.val) (f.val - kepler_equ_elps x.val e.val M.val)
    linarith
  have := abs_sub_le_of_slope (by linarith : 0 < 1 - e.val) (fun E => hasDerivAt_elps E e.val M.val) (dE_ge h0)
    y.val Es
  rw [hEs, sub_zero] at this
  exact this.trans (div_le_div_of_nonneg_right hfin (by linarith))

end

end Adx
