import Verif.Props.C18d
import Verif.Props.C68e

/-! # C68, part 8: `solve_kepler_hypb` in rounded arithmetic

For eccentricities from 3 on, the value returned is accurate for every mean anomaly `N ≥ 0`, whether the loop stops on its
test or on the iteration limit, and for those `N < 0` for which the starting formula does not cancel (for the others see
C69). -/

namespace Adx
open Spec

theorem exp_neg_le_quad {t : ℝ} (ht : 0 ≤ t) : Real.exp (-t) ≤ 1 - t + t ^ 2 / 2 := by
  rw [Real.exp_neg, inv_le_iff_one_le_mul₀ (Real.exp_pos t)]
  have h := Real.quadratic_le_exp_of_nonneg ht
  have h0 : 0 < 1 - t + t ^ 2 / 2 := by nlinarith [sq_nonneg (t - 1)]
  calc (1 : ℝ) ≤ (1 - t + t ^ 2 / 2) * (1 + t + t ^ 2 / 2) := by nlinarith [sq_nonneg (t ^ 2)]
    _ ≤ _ := mul_le_mul_of_nonneg_left h h0.le

theorem abs_sinh_le_cosh (x : ℝ) : |Real.sinh x| ≤ Real.cosh x :=
  abs_le.2 ⟨by rw [← Real.cosh_neg]; linarith [Real.sinh_lt_cosh (-x), Real.sinh_neg x], (Real.sinh_lt_cosh x).le⟩

theorem cosh_le_exp (x y : ℝ) : Real.cosh x ≤ Real.cosh y * Real.exp |x - y| := by
  have h1 : Real.cosh x = Real.cosh y * Real.cosh (x - y) + Real.sinh y * Real.sinh (x - y) := by
    rw [← Real.cosh_add]; ring_nf
  have h2 : Real.sinh y * Real.sinh (x - y) ≤ Real.cosh y * Real.sinh |x - y| := by
    rw [← Real.abs_sinh]
    calc _ ≤ |Real.sinh y * Real.sinh (x - y)| := le_abs_self _
      _ = |Real.sinh y| * |Real.sinh (x - y)| := abs_mul _ _
      _ ≤ _ := mul_le_mul_of_nonneg_right (abs_sinh_le_cosh y) (abs_nonneg _)
  rw [h1, ← Real.cosh_add_sinh |x - y|, Real.cosh_abs]
  linarith

/-- Taylor's formula for `sinh`, with the remainder at the end point. -/
theorem sinh_taylor (x d : ℝ) :
    |Real.sinh x - Real.sinh (x - d) - d * Real.cosh (x - d)| ≤ Real.cosh x * (d ^ 2 / 2 * Real.exp |d|) := by
  have key : ∀ x d : ℝ, 0 ≤ d →
      |Real.sinh x - Real.sinh (x - d) - d * Real.cosh (x - d)| ≤ Real.cosh x * (d ^ 2 / 2 * Real.exp |d|) := by
    intro x d hd
    have h1 : Real.sinh x - Real.sinh (x - d) - d * Real.cosh (x - d)
        = Real.sinh x * (1 - Real.cosh d + d * Real.sinh d) + Real.cosh x * (Real.sinh d - d * Real.cosh d) := by
      rw [Real.sinh_sub, Real.cosh_sub]; ring
    have hs : d ≤ Real.sinh d := Real.self_le_sinh_iff.2 hd
    have hc := Real.cosh_sq d
    have hc1 := Real.one_le_cosh d
    have hT : d ^ 2 / 2 * Real.exp d ≥ d * Real.exp d - Real.exp d + 1 := by
      have := mul_le_mul_of_nonneg_right (exp_neg_le_quad hd) (Real.exp_pos d).le
      rw [← Real.exp_add, neg_add_cancel, Real.exp_zero] at this
      linarith
    have ha : 0 ≤ 1 - Real.cosh d + d * Real.sinh d := by
      have h2 : Real.cosh d - 1 ≤ d * Real.sinh d := by
        have e1 : Real.cosh d - 1 = 2 * Real.sinh (d / 2) ^ 2 := by
          have := Real.cosh_two_mul (d / 2)
          rw [show 2 * (d / 2) = d by ring] at this
          have := Real.cosh_sq (d / 2)
          linarith
        have e2 : Real.sinh d = 2 * Real.sinh (d / 2) * Real.cosh (d / 2) := by
          have := Real.sinh_two_mul (d / 2)
          rwa [show 2 * (d / 2) = d by ring] at this
        have h0 : 0 ≤ Real.sinh (d / 2) := Real.sinh_nonneg_iff.2 (by linarith)
        have e3 : Real.sinh (d / 2) ≤ d * Real.cosh (d / 2) := by
          have := sinh_le_self_mul_cosh (show 0 ≤ d / 2 by linarith)
          have hcc := Real.cosh_pos (d / 2)
          nlinarith
        rw [e1, e2]
        nlinarith
      linarith
    have hb : Real.sinh d - d * Real.cosh d ≤ 0 := by linarith [sinh_le_self_mul_cosh hd]
    rw [h1, abs_of_nonneg hd]
    refine (abs_add_le _ _).trans ?_
    rw [abs_mul, abs_mul, abs_of_nonneg ha, abs_of_nonpos hb, abs_of_pos (Real.cosh_pos x)]
    have h3 := mul_le_mul_of_nonneg_right (abs_sinh_le_cosh x) ha
    have h4 : (1 - Real.cosh d + d * Real.sinh d) - (Real.sinh d - d * Real.cosh d)
        = d * Real.exp d - Real.exp d + 1 := by rw [← Real.cosh_add_sinh d]; ring
    have h5 := mul_le_mul_of_nonneg_left hT.le (Real.cosh_pos x).le
    rw [← h4] at h5
    linarith
  rcases le_total 0 d with hd | hd
  · exact key x d hd
  · have h := key (-x) (-d) (by linarith)
    rw [show -x - -d = -(x - d) by ring, Real.sinh_neg, Real.sinh_neg, Real.cosh_neg, Real.cosh_neg, abs_neg,
      neg_sq] at h
    rw [← abs_neg]
    convert h using 2
    ring

theorem sinh_move (x y : ℝ) : |Real.sinh x - Real.sinh y| ≤ Real.cosh x * (Real.exp |x - y| - 1) := by
  have h1 : Real.sinh x - Real.sinh y = Real.sinh x * (1 - Real.cosh (x - y)) + Real.cosh x * Real.sinh (x - y) := by
    have : Real.sinh y = Real.sinh (x - (x - y)) := by ring_nf
    rw [this, Real.sinh_sub]; ring
  rw [h1]
  refine (abs_add_le _ _).trans ?_
  rw [abs_mul, abs_mul, abs_of_pos (Real.cosh_pos x), abs_sub_comm, abs_of_nonneg
    (by linarith [Real.one_le_cosh (x - y)] : 0 ≤ Real.cosh (x - y) - 1), Real.abs_sinh (x - y),
    ← Real.cosh_abs (x - y), ← Real.cosh_add_sinh |x - y|]
  have := mul_le_mul_of_nonneg_right (abs_sinh_le_cosh x)
    (by linarith [Real.one_le_cosh |x - y|] : 0 ≤ Real.cosh |x - y| - 1)
  linarith

theorem exp_le_sq {s : ℝ} (h : s < 2) : Real.exp s ≤ 1 / (1 - s / 2) ^ 2 := by
  have h1 := Real.one_sub_le_exp_neg (s / 2)
  have h0 : 0 < 1 - s / 2 := by linarith
  rw [le_div_iff₀ (by positivity)]
  have h2 : (1 - s / 2) ^ 2 ≤ Real.exp (-(s / 2)) ^ 2 := pow_le_pow_left₀ h0.le h1 2
  rw [← Real.exp_nat_mul] at h2
  calc Real.exp s * (1 - s / 2) ^ 2 ≤ Real.exp s * Real.exp ((2 : ℕ) * -(s / 2)) := by gcongr
    _ = 1 := by rw [← Real.exp_add, Nat.cast_ofNat, show s + 2 * -(s / 2) = 0 by ring, Real.exp_zero]

section
variable {e N : ℝ} (he : 3 ≤ e)
include he

theorem dH_ge_cosh (x : ℝ) : 2 / 3 * (e * Real.cosh x) ≤ dH x e ∧ 2 ≤ dH x e := by
  have := Real.one_le_cosh x
  rw [dH_eq]
  constructor <;> nlinarith

/-- After an exact Newton step of size `s` the residual is quadratic in `s`. -/
theorem hyp_newton_resid {H s : ℝ} (hf : kepler_equ_hypb H e N = s * dH H e) :
    |kepler_equ_hypb (H - s) e N| ≤ e * Real.cosh (H - s) * (s ^ 2 / 2 * Real.exp |s|) := by
  have h := sinh_taylor (H - s) (-s)
  rw [show H - s - -s = H by ring, abs_neg, neg_sq] at h
  rw [kep_hypb_eq, dH_eq] at hf
  have h1 : kepler_equ_hypb (H - s) e N = e * (Real.sinh (H - s) - Real.sinh H - -s * Real.cosh H) := by
    rw [kep_hypb_eq]; linear_combination hf
  rw [h1, abs_mul, abs_of_pos (by linarith : 0 < e), mul_assoc]
  exact mul_le_mul_of_nonneg_left h (by linarith)

theorem hyp_move {x y : ℝ} (h : |x - y| ≤ 1 / 100) :
    |kepler_equ_hypb x e N| ≤ |kepler_equ_hypb y e N| + 7 / 5 * (|x - y| * (e * Real.cosh x)) := by
  have h1 : kepler_equ_hypb x e N = kepler_equ_hypb y e N + (e * (Real.sinh x - Real.sinh y) - (x - y)) := by
    rw [kep_hypb_eq, kep_hypb_eq]; ring
  have hc := Real.one_le_cosh x
  have h0 := abs_nonneg (x - y)
  have h2 : Real.exp |x - y| - 1 ≤ 102 / 100 * |x - y| := by
    have := Real.one_sub_le_exp_neg |x - y|
    rw [Real.exp_neg] at this
    have hp := Real.exp_pos |x - y|
    have h3 : Real.exp |x - y| * (1 - |x - y|) ≤ 1 := by
      calc _ ≤ Real.exp |x - y| * (Real.exp |x - y|)⁻¹ := by gcongr
        _ = 1 := mul_inv_cancel₀ hp.ne'
    nlinarith
  have h3 : |e * (Real.sinh x - Real.sinh y) - (x - y)| ≤ 7 / 5 * (|x - y| * (e * Real.cosh x)) := by
    refine (abs_sub _ _).trans ?_
    rw [abs_mul, abs_of_pos (by linarith : 0 < e)]
    have h4 : e * |Real.sinh x - Real.sinh y| ≤ e * (Real.cosh x * (102 / 100 * |x - y|)) := by
      refine mul_le_mul_of_nonneg_left ((sinh_move x y).trans ?_) (by linarith)
      exact mul_le_mul_of_nonneg_left h2 (by linarith)
    have h5 : 3 ≤ e * Real.cosh x := by nlinarith
    have h6 : |x - y| * 3 ≤ |x - y| * (e * Real.cosh x) := mul_le_mul_of_nonneg_left h5 h0
    nlinarith
  rw [h1]
  exact (abs_add_le _ _).trans (by linarith)

/-- A small relative residual bounds the argument. -/
theorem hyp_size {x s : ℝ} (hx : |kepler_equ_hypb x e N| ≤ s * dH x e) (hs : s ≤ 57 / 100) :
    |x| ≤ Real.log (21 * |N| / e + 13) := by
  have hN := abs_nonneg N
  have hS := abs_nonneg (Real.sinh x)
  have hc : Real.cosh x ≤ |Real.sinh x| + 1 := by
    have := Real.cosh_sq x
    rw [← sq_abs (Real.sinh x)] at this
    nlinarith [Real.cosh_pos x]
  have hxs : |x| ≤ |Real.sinh x| := by
    rw [Real.abs_sinh]; exact Real.self_le_sinh_iff.2 (abs_nonneg x)
  rw [kep_hypb_eq, dH_eq] at hx
  have h1 : e * |Real.sinh x| ≤ |N| + |x| + s * (e * Real.cosh x - 1) := by
    have : e * Real.sinh x = (e * Real.sinh x - x - N) + (x + N) := by ring
    have h2 : e * |Real.sinh x| = |e * Real.sinh x| := by rw [abs_mul, abs_of_pos (by linarith : 0 < e)]
    rw [h2, this]
    refine (abs_add_le _ _).trans ?_
    have := abs_add_le x N
    linarith
  have hec : 0 ≤ e * Real.cosh x - 1 := by nlinarith [Real.one_le_cosh x]
  have h3 : s * (e * Real.cosh x - 1) ≤ 57 / 100 * (e * (|Real.sinh x| + 1)) := by
    calc s * (e * Real.cosh x - 1) ≤ 57 / 100 * (e * Real.cosh x - 1) := by gcongr
      _ ≤ _ := by nlinarith
  have h4 : e * |Real.sinh x| ≤ 21 / 2 * |N| + 6 * e := by nlinarith
  have h5 : |Real.sinh x| ≤ 21 / 2 * |N| / e + 6 := by
    rw [← sub_le_iff_le_add, le_div_iff₀ (by linarith)]; linarith
  have hpos : 0 < 21 * |N| / e + 13 := by positivity
  rw [Real.le_log_iff_exp_le hpos, ← Real.cosh_add_sinh, Real.cosh_abs, ← Real.abs_sinh]
  have : 21 * |N| / e = 2 * (21 / 2 * |N| / e) := by ring
  linarith

/-- The root is next to a point of small relative residual. -/
theorem hyp_root_near {x s a : ℝ} (hx : |kepler_equ_hypb x e N| ≤ s * dH x e) (hs0 : 0 ≤ s) (hs : s ≤ 1 / 100)
    (ha : kepler_equ_hypb a e N = 0) : |x - a| ≤ 2 * s := by
  have hmono : StrictMono fun y => kepler_equ_hypb y e N := by
    refine strictMono_of_deriv_pos fun y => ?_
    rw [(hasDerivAt_hypb y e N).deriv]
    linarith [(dH_ge_cosh he y).2]
  have hD := (dH_ge_cosh he x).1
  have hD0 : 0 < dH x e := by linarith [(dH_ge_cosh he x).2]
  have key : ∀ d, |d| = 2 * s →
      |kepler_equ_hypb (x + d) e N - kepler_equ_hypb x e N - d * dH x e| ≤ s * dH x e := by
    intro d hd
    have h1 := sinh_taylor (x + d) d
    rw [add_sub_cancel_right, hd] at h1
    have h2 : kepler_equ_hypb (x + d) e N - kepler_equ_hypb x e N - d * dH x e
        = e * (Real.sinh (x + d) - Real.sinh x - d * Real.cosh x) := by
      rw [kep_hypb_eq, kep_hypb_eq, dH_eq]; ring
    have h3 := cosh_le_exp (x + d) x
    rw [add_sub_cancel_left, hd] at h3
    have h4 : Real.exp (2 * s) ≤ 103 / 100 := by
      refine (exp_le_sq (by linarith)).trans ?_
      rw [div_le_iff₀ (by nlinarith)]
      nlinarith
    have hc := Real.cosh_pos x
    have h5 : Real.cosh (x + d) ≤ Real.cosh x * (103 / 100) := h3.trans (by gcongr)
    have h6 : d ^ 2 / 2 * Real.exp (2 * s) ≤ (2 * s) * (1 / 100) * (103 / 100) := by
      have : d ^ 2 / 2 ≤ 2 * s * (1 / 100) := by rw [← sq_abs, hd]; nlinarith
      gcongr
    rw [h2, abs_mul, abs_of_pos (by linarith : 0 < e)]
    calc e * |Real.sinh (x + d) - Real.sinh x - d * Real.cosh x|
        ≤ e * ((Real.cosh x * (103 / 100)) * ((2 * s) * (1 / 100) * (103 / 100))) := by
          refine mul_le_mul_of_nonneg_left (h1.trans ?_) (by linarith)
          exact mul_le_mul h5 h6 (by positivity) (by positivity)
      _ = (e * Real.cosh x) * (s * (103 / 100 * (2 / 100) * (103 / 100))) := by ring
      _ ≤ (3 / 2 * dH x e) * (s * (2 / 3)) := by
          refine mul_le_mul (by linarith) ?_ (by positivity) (by linarith)
          exact mul_le_mul_of_nonneg_left (by norm_num) hs0
      _ = _ := by ring
  have k1 := abs_le.1 (key (2 * s) (by rw [abs_of_nonneg (by linarith)]))
  have k2 := abs_le.1 (key (-(2 * s)) (by rw [abs_neg, abs_of_nonneg (by linarith)]))
  have hx' := abs_le.1 hx
  have a1 : a ≤ x + 2 * s := hmono.le_iff_le.1 (by show kepler_equ_hypb a e N ≤ _; rw [ha]; linarith [k1.1, hx'.1])
  have a2 : x + -(2 * s) ≤ a := hmono.le_iff_le.1 (by show _ ≤ kepler_equ_hypb a e N; rw [ha]; linarith [k2.2, hx'.2])
  exact abs_le.2 ⟨by linarith, by linarith⟩

end

theorem gam_le_gam {u j k : ℝ} (hu : 0 < u) (hj : 0 ≤ j) (hjk : j ≤ k) (hk : k * u < 1) : gam u j ≤ gam u k := by
  have h := mul_le_mul_of_nonneg_right hjk hu.le
  exact div_le_div₀ (mul_nonneg (hj.trans hjk) hu.le) h (by linarith) (by linarith)

section
variable {F : Fp} {u L : ℝ} (hF : StdModel F u L) {N e : Rnd F} (he : 3 ≤ e.val)

/-- The rounding level of a step of the hyperbolic iteration. -/
noncomputable def hypLoss (u L : ℝ) (N e : Rnd F) : ℝ :=
  gam u (4 * L + 9) * (Real.log (21 * |N.val| / e.val + 13) + 9)

variable (hδ : hypLoss u L N e ≤ 1 / 10000)
include hF he hδ

omit hδ in
theorem hypLoss_facts : 0 ≤ gam u (4 * L + 9) ∧ 11 * gam u (4 * L + 9) ≤ hypLoss u L N e ∧
    gam u (L + 3) ≤ gam u (4 * L + 9) ∧ u ≤ gam u (4 * L + 9) ∧ (4 * L + 9) * u < 1 := by
  have hL1 := hF.one_le
  have hL2 := hF.le_hundred
  have hu0 := hF.u_pos
  have hk : (4 * L + 9) * u < 1 := ku_lt hF (by linarith)
  have hg := gam_nonneg hF (k := 4 * L + 9) (by linarith) hk
  have hl : 2 ≤ Real.log (21 * |N.val| / e.val + 13) := by
    rw [Real.le_log_iff_exp_le (by positivity)]
    have h1 : Real.exp 2 = Real.exp 1 * Real.exp 1 := by rw [← Real.exp_add]; norm_num
    have := Real.exp_one_lt_d9
    have h0 := Real.exp_pos 1
    have : 0 ≤ 21 * |N.val| / e.val := by positivity
    rw [h1]; nlinarith
  refine ⟨hg, ?_, ?_, ?_, hk⟩
  · unfold hypLoss; nlinarith
  · unfold gam
    exact div_le_div₀ (by nlinarith) (by nlinarith) (by linarith) (by nlinarith)
  · unfold gam
    rw [le_div_iff₀ (by linarith)]
    nlinarith [mul_nonneg (by linarith : 0 ≤ 4 * L + 9) hu0.le]

omit hδ in
/-- The computed residual at a point of small relative residual. -/
theorem hypb_resid_rnd (x : Rnd F) {s : ℝ} (hx : |kepler_equ_hypb x.val e.val N.val| ≤ s * dH x.val e.val)
    (hs : s ≤ 57 / 100) :
    |(kepler_equ_hypb x e N).val - kepler_equ_hypb x.val e.val N.val| ≤ 5 * gam u (4 * L + 9) * dH x.val e.val := by
  obtain ⟨g0, g1, g2, g3, g4⟩ := hypLoss_facts hF he (N := N)
  obtain ⟨hD, hD2⟩ := dH_ge_cosh he x.val
  refine (C67_kepler_hypb hF x e N).trans ?_
  have hc := Real.one_le_cosh x.val
  have hS := abs_sinh_le_cosh x.val
  have hxs : |x.val| ≤ |Real.sinh x.val| := by
    rw [Real.abs_sinh]; exact Real.self_le_sinh_iff.2 (abs_nonneg _)
  have e1 : |e.val * Real.sinh x.val| ≤ e.val * Real.cosh x.val := by
    rw [abs_mul, abs_of_pos (by linarith : 0 < e.val)]
    exact mul_le_mul_of_nonneg_left hS (by linarith)
  have e2 : |x.val| ≤ e.val * Real.cosh x.val / 3 := by
    have : 3 * Real.cosh x.val ≤ e.val * Real.cosh x.val := mul_le_mul_of_nonneg_right he (by linarith)
    linarith
  have e3 : |N.val| ≤ |e.val * Real.sinh x.val| + |x.val| + |kepler_equ_hypb x.val e.val N.val| := by
    have : N.val = e.val * Real.sinh x.val - x.val - kepler_equ_hypb x.val e.val N.val := by rw [kep_hypb_eq]; ring
    calc |N.val| = |e.val * Real.sinh x.val - x.val - kepler_equ_hypb x.val e.val N.val| := congrArg _ this
      _ ≤ |e.val * Real.sinh x.val - x.val| + _ := abs_sub _ _
      _ ≤ _ := by linarith [abs_sub (e.val * Real.sinh x.val) x.val]
  have e4 : s * dH x.val e.val ≤ 57 / 100 * dH x.val e.val := by gcongr
  calc gam u (L + 3) * (|e.val * Real.sinh x.val| + |x.val| + |N.val|) ≤ gam u (4 * L + 9) * (5 * dH x.val e.val) := by
        gcongr; linarith
    _ = _ := by ring

/-- One rounded Newton step and the exact one. -/
theorem hypb_newton_rnd (x : Rnd F) {s : ℝ} (hx : |kepler_equ_hypb x.val e.val N.val| ≤ s * dH x.val e.val)
    (hs : s ≤ 57 / 100) :
    |(newtonHypb N e x).val - newtonHypb N.val e.val x.val| ≤ hypLoss u L N e := by
  have hL1 := hF.one_le
  have hL2 := hF.le_hundred
  have hu0 := hF.u_pos
  obtain ⟨g0, g1, g2, g3, g4⟩ := hypLoss_facts hF he (N := N)
  obtain ⟨hD, hD2⟩ := dH_ge_cosh he x.val
  have hD0 : 0 < dH x.val e.val := by linarith
  have hc := Real.one_le_cosh x.val
  have hsz := hyp_size he hx hs
  have hfa := hypb_resid_rnd hF he x hx hs
  have hec : 3 ≤ e.val * Real.cosh x.val := by nlinarith
  have hdw : Within u (4 * L + 8) (dH x e).val (dH x.val e.val) := by
    have := (near_dH hF x e).within hF (c := 2) (by linarith) hD0.ne' ?_ ?_
    · exact this.mono hF (by linarith)
    · rw [abs_of_pos hD0, abs_of_pos (by linarith), dH_eq]; linarith
    · have : (4 * L + 9) * u ≤ gam u (4 * L + 9) := by
        unfold gam
        rw [le_div_iff₀ (by linarith)]
        nlinarith [mul_nonneg (by linarith : 0 ≤ 4 * L + 9) hu0.le]
      nlinarith
  have hstep := newton_rnd hF x (kepler_equ_hypb x e N) (dH x e) hfa hdw (by linarith) hD0 le_rfl
    (by rw [show 4 * L + 8 + 1 = 4 * L + 9 by ring]; exact g4)
  rw [show 4 * L + 8 + 1 = 4 * L + 9 by ring] at hstep
  refine hstep.trans ?_
  unfold hypLoss at g1 hδ ⊢
  set γ := gam u (4 * L + 9)
  set D := dH x.val e.val
  set f := |kepler_equ_hypb x.val e.val N.val|
  set B := Real.log (21 * |N.val| / e.val + 13)
  have hf : f / D ≤ 57 / 100 := by
    rw [div_le_iff₀ hD0]
    exact hx.trans (mul_le_mul_of_nonneg_right hs hD0.le)
  have hG : (γ * (f + 5 * γ * D) + 5 * γ * D) / D = γ * (f / D + 5 * γ) + 5 * γ := by field_simp
  have hγ : γ ≤ 1 / 10000 := by linarith
  have hG6 : γ * (f / D + 5 * γ) + 5 * γ ≤ 6 * γ := by
    have : γ * (f / D + 5 * γ) ≤ γ * 1 := by gcongr; linarith
    linarith
  rw [hG]
  have h1 : u * (|x.val| + f / D + (γ * (f / D + 5 * γ) + 5 * γ)) ≤ γ * (B + 2) := by
    refine mul_le_mul g3 (by linarith) ?_ g0
    have : 0 ≤ f / D := div_nonneg (abs_nonneg _) hD0.le
    positivity
  calc _ ≤ 6 * γ + γ * (B + 2) := add_le_add hG6 h1
    _ ≤ _ := by nlinarith

/-- One rounded Newton step squares the relative residual, up to rounding. -/
theorem hypb_step_rnd (x : Rnd F) {s : ℝ} (hx : |kepler_equ_hypb x.val e.val N.val| ≤ s * dH x.val e.val)
    (hs : s ≤ 57 / 100) :
    |kepler_equ_hypb (newtonHypb N e x).val e.val N.val| ≤
      (751 / 1000 * (s ^ 2 / (1 - s / 2) ^ 2) + 21 / 10 * hypLoss u L N e) * dH (newtonHypb N e x).val e.val := by
  obtain ⟨hD, hD2⟩ := dH_ge_cosh he x.val
  have hD0 : 0 < dH x.val e.val := by linarith
  obtain ⟨g0, g1, -, -, -⟩ := hypLoss_facts hF he (N := N)
  have hs0 : 0 ≤ s := by
    have := (abs_nonneg _).trans hx
    exact nonneg_of_mul_nonneg_left this hD0
  have hn := hypb_newton_rnd hF he hδ x hx hs
  set δ := hypLoss u L N e
  set t := kepler_equ_hypb x.val e.val N.val / dH x.val e.val with ht
  have hft : kepler_equ_hypb x.val e.val N.val = t * dH x.val e.val := by rw [ht]; field_simp
  have hts : |t| ≤ s := by rw [ht, abs_div, abs_of_pos hD0, div_le_iff₀ hD0]; exact hx
  have hy := hyp_newton_resid he hft
  have hny : newtonHypb N.val e.val x.val = x.val - t := rfl
  rw [hny] at hn
  generalize (newtonHypb N e x).val = z at *
  generalize x.val - t = y at *
  have hm := hyp_move he (N := N.val) (x := z) (y := y) (by linarith)
  obtain ⟨hz, hz2⟩ := dH_ge_cosh he z
  have hcz := Real.one_le_cosh z
  have hcy := cosh_le_exp y z
  rw [abs_sub_comm] at hcy
  have hd : Real.exp |z - y| ≤ 1001 / 1000 := by
    refine (Real.exp_le_exp.2 (hn.trans hδ)).trans ((exp_le_sq (by norm_num)).trans (by norm_num))
  have hcy' : Real.cosh y ≤ Real.cosh z * (1001 / 1000) := hcy.trans (by gcongr)
  set Q := s ^ 2 / (1 - s / 2) ^ 2 with hQ
  have hQ0 : 0 ≤ Q := by positivity
  have htQ : t ^ 2 / 2 * Real.exp |t| ≤ Q / 2 := by
    have h1 : Real.exp |t| ≤ 1 / (1 - s / 2) ^ 2 := (Real.exp_le_exp.2 hts).trans (exp_le_sq (by linarith))
    have h2 : t ^ 2 ≤ s ^ 2 := by rw [← sq_abs]; exact pow_le_pow_left₀ (abs_nonneg _) hts 2
    calc t ^ 2 / 2 * Real.exp |t| ≤ s ^ 2 / 2 * (1 / (1 - s / 2) ^ 2) := by gcongr
      _ = Q / 2 := by rw [hQ]; ring
  have h3 : |kepler_equ_hypb y e.val N.val| ≤ e.val * (Real.cosh z * (1001 / 1000)) * (Q / 2) := by
    refine hy.trans ?_
    have : 0 ≤ Real.cosh y := (Real.cosh_pos y).le
    have : 0 ≤ e.val := by linarith
    gcongr
  have h4 : |z - y| * (e.val * Real.cosh z) ≤ δ * (e.val * Real.cosh z) :=
    mul_le_mul_of_nonneg_right hn (by nlinarith)
  have hδ0 : 0 ≤ δ := by linarith
  calc |kepler_equ_hypb z e.val N.val| ≤ e.val * (Real.cosh z * (1001 / 1000)) * (Q / 2)
        + 7 / 5 * (δ * (e.val * Real.cosh z)) := by linarith
    _ = (e.val * Real.cosh z) * (1001 / 2000 * Q + 7 / 5 * δ) := by ring
    _ ≤ (3 / 2 * dH z e.val) * (1001 / 2000 * Q + 7 / 5 * δ) := by
        refine mul_le_mul_of_nonneg_right (by linarith) (by positivity)
    _ = (3003 / 4000 * Q + 21 / 10 * δ) * dH z e.val := by ring
    _ ≤ _ := by
        refine mul_le_mul_of_nonneg_right ?_ (by linarith)
        linarith

/-- The rounded starting value: no condition for `N ≥ 0`; for `N < 0` the argument of the logarithm cancels. -/
theorem hypb_start_rnd (hN : 0 ≤ N.val ∨ 100000 * u * (4 * |N.val| / e.val + 1) ^ 2 ≤ 1) :
    |(hypbStart N e).val - hypbStart N.val e.val| ≤ 1 / 200 := by
  have hL1 := hF.one_le
  have hL2 := hF.le_hundred
  have hu0 := hF.u_pos
  have hη := eta_le hF
  have hη0 := hF.eta0
  obtain ⟨g0, g1, g2, g3, g4⟩ := hypLoss_facts hF he (N := N)
  have hku : (4 * L + 9) * u ≤ gam u (4 * L + 9) := by
    unfold gam
    rw [le_div_iff₀ (by linarith)]
    nlinarith [mul_nonneg (by linarith : 0 ≤ 4 * L + 9) hu0.le]
  have hu6 : u ≤ 1 / 100000 := by nlinarith
  set z : Rnd F := ℓ 2 * N / e with hz
  set r := JFun.sqrt (z ^ 2 + ℓ 1) with hr
  set x := 2 * N.val / e.val with hx
  have wz : Within u 2 z.val x := by
    have := ((Within.lit hF 2 (by norm_num)).mul hF (Within.refl u N.val)).div hF (Within.refl u e.val)
    rw [hx]
    convert this using 1 <;> norm_num
  have wr : Within u 4 r.val (Real.sqrt (x ^ 2 + 1)) := by
    have := ((wz.sq hF).add hF (Within.lit hF 1 (by norm_num)) (sq_nonneg x) (by norm_num)).sqrt hF
    convert this using 1 <;> norm_num
  set ρ := Real.sqrt (x ^ 2 + 1) with hρ
  have hρ2 : ρ ^ 2 = x ^ 2 + 1 := Real.sq_sqrt (by positivity)
  have hρx : |x| < ρ := by
    rw [hρ]; exact Real.lt_sqrt_of_sq_lt (by rw [sq_abs]; linarith)
  have hρle : ρ ≤ |x| + 1 := by
    rw [hρ]; refine Real.sqrt_le_iff.2 ⟨by positivity, ?_⟩
    nlinarith [abs_nonneg x, sq_abs x]
  have hy0 : 0 < x + ρ := by linarith [neg_abs_le x]
  have hxa : 2 * |x| = 4 * |N.val| / e.val := by
    rw [hx, abs_div, abs_mul, abs_of_pos (by linarith : 0 < e.val)]; norm_num; ring
  have key : ∃ K, 1 ≤ K ∧ K * eta u ≤ 1 / 1000 ∧ Within u K (z + r).val (x + ρ) := by
    rcases hN with hN | hN
    · have hx0 : 0 ≤ x := by rw [hx]; exact div_nonneg (by linarith) (by linarith)
      refine ⟨5, by norm_num, by linarith, ?_⟩
      have := wz.add hF wr hx0 (Real.sqrt_nonneg _)
      convert this using 1; norm_num
    · have hn : Near u 5 (|x| + |ρ|) (z + r).val (x + ρ) := by
        have := (wz.near hF).add hF (wr.near hF)
        convert this using 1; norm_num
      have hρ0 : 0 ≤ ρ := Real.sqrt_nonneg _
      have hc : (|x| + ρ) ≤ (2 * |x| + 1) ^ 2 * (x + ρ) := by
        have h1 : 1 ≤ (|x| + ρ) * (x + ρ) := by
          rcases abs_cases x with ⟨h, _⟩ | ⟨h, _⟩
          · rw [h]; nlinarith [abs_nonneg x]
          · rw [h]; nlinarith
        have h2 : (|x| + ρ) ^ 2 ≤ (2 * |x| + 1) ^ 2 := by
          refine pow_le_pow_left₀ (by positivity) (by linarith) 2
        calc |x| + ρ = (|x| + ρ) * 1 := by ring
          _ ≤ (|x| + ρ) * ((|x| + ρ) * (x + ρ)) := by gcongr
          _ = (|x| + ρ) ^ 2 * (x + ρ) := by ring
          _ ≤ _ := by gcongr
      rw [← hxa] at hN
      have hcc : 1 ≤ (2 * |x| + 1) ^ 2 := by nlinarith [abs_nonneg x]
      have := hn.within hF (c := (2 * |x| + 1) ^ 2) (by norm_num) hy0.ne' (by rwa [abs_of_pos hy0, abs_of_nonneg hρ0])
        (by nlinarith)
      exact ⟨_, by linarith, by
        calc 2 * (2 * |x| + 1) ^ 2 * 5 * eta u ≤ 2 * (2 * |x| + 1) ^ 2 * 5 * (2 * u) := by gcongr
          _ ≤ _ := by nlinarith, this⟩
  obtain ⟨K, hK1, hKη, θ, hθ, hzr⟩ := key
  have hy1 : x + ρ ≤ 2 * |x| + 1 := by linarith [le_abs_self x]
  have hy2 : 1 / (2 * |x| + 1) ≤ x + ρ := by
    have h3 : (x + ρ) * (ρ - x) = 1 := by linear_combination hρ2
    have h4 : ρ - x ≤ 2 * |x| + 1 := by linarith [neg_abs_le x]
    rw [div_le_iff₀ (by positivity)]
    calc 1 = (x + ρ) * (ρ - x) := h3.symm
      _ ≤ _ := by gcongr
  have hlog : |Real.log (x + ρ)| ≤ Real.log (21 * |N.val| / e.val + 13) := by
    have h5 : Real.log (2 * |x| + 1) ≤ Real.log (21 * |N.val| / e.val + 13) := by
      refine Real.log_le_log (by positivity) ?_
      rw [hxa]
      have : 4 * |N.val| / e.val ≤ 21 * |N.val| / e.val := by gcongr; norm_num
      linarith
    rw [abs_le]
    constructor
    · have := Real.log_le_log (by positivity) hy2
      rw [one_div, Real.log_inv] at this
      linarith
    · exact (Real.log_le_log hy0 hy1).trans h5
  have hθ' : |θ| ≤ 1 / 1000 := hθ.trans hKη
  have hl2 : Real.log (z + r).val = Real.log (x + ρ) + θ := by
    rw [hzr, Real.log_mul hy0.ne' (Real.exp_pos _).ne', Real.log_exp]
  have hs : hypbStart N.val e.val = Real.log (x + ρ) := by
    simp only [hypbStart, log_real, sqrt_real, hx, hρ]; norm_num
  have hsr : (hypbStart N e).val = F.log (z + r).val := rfl
  have hgL : gam u L ≤ gam u (4 * L + 9) := gam_le_gam hu0 (by linarith) (by linarith) g4
  have hb := (hF.log (z + r).val).bound hF hL1 (ku_lt hF (by linarith))
  rw [hs, hsr]
  have h6 : |Real.log (z + r).val| ≤ Real.log (21 * |N.val| / e.val + 13) + 1 := by
    rw [hl2]; refine (abs_add_le _ _).trans ?_; linarith
  have h7 : gam u L * |Real.log (z + r).val| ≤ hypLoss u L N e := by
    unfold hypLoss
    refine mul_le_mul hgL (by linarith) (abs_nonneg _) g0
  calc |F.log (z + r).val - Real.log (x + ρ)| = |(F.log (z + r).val - Real.log (z + r).val) + θ| := by rw [hl2]; ring_nf
    _ ≤ hypLoss u L N e + 1 / 1000 := (abs_add_le _ _).trans (by linarith)
    _ ≤ _ := by linarith

section
variable (hst : |(hypbStart N e).val - hypbStart N.val e.val| ≤ 1 / 200)
include hst

omit hF hδ in
/-- The relative residual of the rounded starting value. -/
theorem hypb_start_resid :
    |kepler_equ_hypb (hypbStart N e).val e.val N.val| ≤ 57 / 100 * dH (hypbStart N e).val e.val := by
  have key : ∀ N : ℝ, 0 ≤ N → |kepler_equ_hypb (hypbStart N e.val) e.val N| ≤ 27 / 50 * dH (hypbStart N e.val) e.val := by
    intro N hN
    obtain ⟨-, h2, -, h4⟩ := hypb_first hN he
    have hD0 : 0 < dH (hypbStart N e.val) e.val := by linarith [(dH_ge_cosh he (hypbStart N e.val)).2]
    have : hypbStart N e.val - newtonHypb N e.val (hypbStart N e.val)
        = kepler_equ_hypb (hypbStart N e.val) e.val N / dH (hypbStart N e.val) e.val := by rw [newtonHypb]; ring
    rw [this, div_le_iff₀ hD0] at h4
    rwa [abs_of_nonneg h2]
  have h1 : |kepler_equ_hypb (hypbStart N.val e.val) e.val N.val| ≤ 27 / 50 * dH (hypbStart N.val e.val) e.val := by
    rcases le_total 0 N.val with h | h
    · exact key _ h
    · have := key (-N.val) (by linarith)
      have e1 : hypbStart (-N.val) e.val = -hypbStart N.val e.val := by
        rw [hypbStart_eq, hypbStart_eq, ← Real.arsinh_neg]; congr 1; ring
      rw [e1, dH_eq, Real.cosh_neg, ← dH_eq] at this
      have e2 : kepler_equ_hypb (-hypbStart N.val e.val) e.val (-N.val) = -kepler_equ_hypb (hypbStart N.val e.val) e.val N.val := by
        rw [kep_hypb_eq, kep_hypb_eq, Real.sinh_neg]; ring
      rwa [e2, abs_neg] at this
  generalize (hypbStart N e).val = z at *
  generalize hypbStart N.val e.val = y at *
  have hm := hyp_move he (N := N.val) (hst.trans (by norm_num))
  have hcz := Real.one_le_cosh z
  obtain ⟨hz, hz2⟩ := dH_ge_cosh he z
  have hcy := cosh_le_exp y z
  rw [abs_sub_comm] at hcy
  have hd : Real.exp |z - y| ≤ 101 / 100 := by
    refine (Real.exp_le_exp.2 hst).trans ((exp_le_sq (by norm_num)).trans (by norm_num))
  have hcy' : Real.cosh y ≤ Real.cosh z * (101 / 100) := hcy.trans (by gcongr)
  have h2 : dH y e.val ≤ dH z e.val + 1 / 100 * (e.val * Real.cosh z) := by
    rw [dH_eq, dH_eq]
    have := mul_le_mul_of_nonneg_left hcy' (by linarith : 0 ≤ e.val)
    linarith
  have h3 : |z - y| * (e.val * Real.cosh z) ≤ 1 / 200 * (e.val * Real.cosh z) :=
    mul_le_mul_of_nonneg_right hst (by nlinarith)
  linarith

/-- The relative residuals of all iterates. -/
theorem hypb_iter_rnd (k : ℕ) : let x := ((newtonHypb N e)^[k] (hypbStart N e)).val
    |kepler_equ_hypb x e.val N.val| ≤ 57 / 100 * dH x e.val ∧
    (7 ≤ k → |kepler_equ_hypb x e.val N.val| ≤ (2 / 10 ^ 18 + 22 / 10 * hypLoss u L N e) * dH x e.val) := by
  set δ := hypLoss u L N e with hδd
  have hδ0 : 0 ≤ δ := by obtain ⟨g0, g1, -⟩ := hypLoss_facts hF he (N := N); linarith
  let P := fun (k : ℕ) (s : ℝ) => |kepler_equ_hypb ((newtonHypb N e)^[k] (hypbStart N e)).val e.val N.val| ≤
    s * dH ((newtonHypb N e)^[k] (hypbStart N e)).val e.val
  have mono : ∀ k s s', P k s → s ≤ s' → P k s' := fun k s s' h hle =>
    le_trans h (mul_le_mul_of_nonneg_right hle (by linarith [(dH_ge_cosh he ((newtonHypb N e)^[k] (hypbStart N e)).val).2]))
  have step : ∀ k s s', P k s → s ≤ 57 / 100 → 751 / 1000 * (s ^ 2 / (1 - s / 2) ^ 2) + 21 / 10 * δ ≤ s' → P (k + 1) s' := by
    intro k s s' h hs hle
    have := hypb_step_rnd hF he hδ _ h hs
    refine mono (k + 1) _ _ ?_ hle
    show |kepler_equ_hypb _ _ _| ≤ _
    rw [Function.iterate_succ_apply']
    exact this
  have small : ∀ s : ℝ, 0 ≤ s → s ≤ 3 / 10000 → 751 / 1000 * (s ^ 2 / (1 - s / 2) ^ 2) ≤ 752 / 1000 * s ^ 2 := by
    intro s h0 h1
    have : s ^ 2 / (1 - s / 2) ^ 2 ≤ 752 / 751 * s ^ 2 := by
      rw [div_le_iff₀ (by nlinarith)]
      have h2 : 1 ≤ 752 / 751 * (1 - s / 2) ^ 2 := by nlinarith
      nlinarith [sq_nonneg s]
    linarith
  have h0 : P 0 (57 / 100) := hypb_start_resid he hst
  have h1 : P 1 (478 / 1000) := step 0 _ _ h0 le_rfl (by norm_num; linarith)
  have h2 : P 2 (297 / 1000) := step 1 _ _ h1 (by norm_num) (by norm_num; linarith)
  have h3 : P 3 (92 / 1000) := step 2 _ _ h2 (by norm_num) (by norm_num; linarith)
  have h4 : P 4 (73 / 10000) := step 3 _ _ h3 (by norm_num) (by norm_num; linarith)
  have h5 : P 5 (42 / 1000000 + 21 / 10 * δ) := step 4 _ _ h4 (by norm_num) (by norm_num)
  have h6 : P 6 (15 / 10 ^ 10 + 22 / 10 * δ) := by
    refine step 5 _ _ h5 (by linarith) ?_
    have := small (42 / 1000000 + 21 / 10 * δ) (by positivity) (by linarith)
    nlinarith
  have h7 : P 7 (2 / 10 ^ 18 + 22 / 10 * δ) := by
    refine step 6 _ _ h6 (by norm_num; linarith) ?_
    have := small (15 / 10 ^ 10 + 22 / 10 * δ) (by positivity) (by norm_num; linarith)
    norm_num at this ⊢
    nlinarith
  have h8 : ∀ j, P (7 + j) (2 / 10 ^ 18 + 22 / 10 * δ) := by
    intro j
    induction j with
    | zero => exact h7
    | succ j ih =>
      refine step (7 + j) _ _ ih (by norm_num; linarith) ?_
      have := small (2 / 10 ^ 18 + 22 / 10 * δ) (by positivity) (by norm_num; linarith)
      norm_num at this ⊢
      nlinarith
  refine ⟨?_, fun hk => ?_⟩
  · show P k (57 / 100)
    rcases Nat.lt_or_ge k 7 with hk | hk
    · interval_cases k
      · exact h0
      · exact mono _ _ _ h1 (by norm_num)
      · exact mono _ _ _ h2 (by norm_num)
      · exact mono _ _ _ h3 (by norm_num)
      · exact mono _ _ _ h4 (by norm_num)
      · exact mono _ _ _ h5 (by linarith)
      · exact mono _ _ _ h6 (by norm_num; linarith)
    · obtain ⟨j, rfl⟩ := Nat.exists_eq_add_of_le hk
      exact mono _ _ _ (h8 j) (by norm_num; linarith)
  · obtain ⟨j, rfl⟩ := Nat.exists_eq_add_of_le hk
    exact h8 j

/-- C68, hyperbolic solver: with at least seven iterations allowed the returned value is within `tol + 5 δ` (plus `10^-17`)
of the exact anomaly, `δ = γ_{4L+9} (log (21 |N|/e + 13) + 9)`, whether or not the loop stopped on its test. -/
theorem C68_hypb_total {tol : Rnd F} (ht0 : 0 ≤ tol.val) (ht : tol.val ≤ 1 / 100) {max_iter : ℕ} (hn : 7 ≤ max_iter) :
    ∃ H, solve_kepler_hypb N e tol max_iter = some H ∧
      ∀ Hs, kepler_equ_hypb Hs e.val N.val = 0 → |H.val - Hs| ≤ tol.val + 5 * hypLoss u L N e + 1 / 10 ^ 17 := by
  obtain ⟨g0, g1, -⟩ := hypLoss_facts hF he (N := N)
  obtain ⟨k, hk, -, hs, -, hstop⟩ := C13_hypb N e tol max_iter
  refine ⟨_, hs, fun Hs hHs => ?_⟩
  obtain ⟨i1, i2⟩ := hypb_iter_rnd hF he hδ hst k
  generalize (newtonHypb N e)^[k] (hypbStart N e) = x at *
  rcases hk.lt_or_eq with hlt | heq
  · have hst := hstop hlt
    simp only [Rnd.lt_rnd, Rnd.val_abs, decide_eq_false_iff_not, not_lt] at hst
    have hr := hypb_resid_rnd hF he x i1 le_rfl
    have hD2 := (dH_ge_cosh he x.val).2
    have h1 : |kepler_equ_hypb x.val e.val N.val| ≤ (tol.val / 2 + 5 * gam u (4 * L + 9)) * dH x.val e.val := by
      calc |kepler_equ_hypb x.val e.val N.val|
          = |(kepler_equ_hypb x e N).val - ((kepler_equ_hypb x e N).val - kepler_equ_hypb x.val e.val N.val)| := by ring_nf
        _ ≤ _ := (abs_sub _ _).trans (by nlinarith)
    have := hyp_root_near he h1 (by linarith) (by linarith) hHs
    refine this.trans ?_
    norm_num
    linarith
  · have := hyp_root_near he (i2 (by omega)) (by norm_num; linarith) (by norm_num; linarith) hHs
    refine this.trans ?_
    norm_num
    linarith

end
end

/-- C68, an instance: `solve_kepler_hypb` in binary64 for every eccentricity of at least 3, every mean anomaly `0 ≤ N ≤ 10^14 e`
(or, on the inbound side, `-5·10^4 e ≤ N < 0`), every tolerance of up to 1/100 and at least seven iterations: the returned anomaly
is within `tol + 4e-13` of the exact one. -/
theorem C68_hypb_f64 {N e tol : Rnd F64} (he : 3 ≤ e.val)
    (hN : 0 ≤ N.val ∧ N.val / e.val ≤ 10 ^ 14 ∨ |N.val| / e.val ≤ 50000)
    (ht0 : 0 ≤ tol.val) (ht : tol.val ≤ 1 / 100) {max_iter : ℕ} (hn : 7 ≤ max_iter) :
    ∃ H, solve_kepler_hypb N e tol max_iter = some H ∧
      ∀ Hs, kepler_equ_hypb Hs e.val N.val = 0 → |H.val - Hs| ≤ tol.val + 4e-13 := by
  have hx : |N.val| / e.val ≤ 10 ^ 14 := by
    rcases hN with ⟨h0, h1⟩ | h
    · rwa [abs_of_nonneg h0]
    · exact h.trans (by norm_num)
  have hx0 : 0 ≤ |N.val| / e.val := by positivity
  have hB : Real.log (21 * |N.val| / e.val + 13) ≤ 36 := by
    rw [Real.log_le_iff_le_exp (by positivity), mul_div_assoc]
    have h1 : Real.exp 36 = Real.exp 1 ^ 36 := by rw [← Real.exp_nat_mul]; norm_num
    have h2 : (2.7 : ℝ) ^ 36 ≤ Real.exp 1 ^ 36 := by
      refine pow_le_pow_left₀ (by norm_num) ?_ 36
      have := Real.exp_one_gt_d9
      norm_num at this ⊢
      linarith
    rw [h1]
    refine le_trans ?_ h2
    norm_num at hx ⊢
    linarith
  have hB0 : 0 ≤ Real.log (21 * |N.val| / e.val + 13) := Real.log_nonneg (by
    have : 0 ≤ 21 * |N.val| / e.val := by positivity
    linarith)
  have hg : gam (2 ^ (-53 : ℤ)) (4 * 1 + 9) ≤ 1.5e-15 := by norm_num [gam]
  have hg0 : 0 ≤ gam (2 ^ (-53 : ℤ)) (4 * 1 + 9) := by norm_num [gam]
  have hδ : hypLoss (2 ^ (-53 : ℤ)) 1 N e ≤ 7e-14 := by
    unfold hypLoss
    calc _ ≤ 1.5e-15 * ((36 : ℝ) + 9) := by gcongr
      _ ≤ _ := by norm_num
  have hst := hypb_start_rnd stdModel_F64 he (hδ.trans (by norm_num)) (N := N) (by
    rcases hN with h | h
    · exact Or.inl h.1
    · right
      have h3 : (4 * |N.val| / e.val + 1) ^ 2 ≤ (200001 : ℝ) ^ 2 := by
        rw [mul_div_assoc]
        exact pow_le_pow_left₀ (by positivity) (by linarith) 2
      calc 100000 * 2 ^ (-53 : ℤ) * (4 * |N.val| / e.val + 1) ^ 2 ≤ 100000 * 2 ^ (-53 : ℤ) * (200001 : ℝ) ^ 2 := by gcongr
        _ ≤ 1 := by norm_num)
  obtain ⟨H, h1, h2⟩ := C68_hypb_total stdModel_F64 he (hδ.trans (by norm_num)) hst ht0 ht hn
  refine ⟨H, h1, fun Hs hHs => (h2 Hs hHs).trans ?_⟩
  norm_num at hδ ⊢
  linarith

/-- The instance is not vacuous: `N = 3 sinh 1 - 1` up to its rounding. -/
example : ∃ H, solve_kepler_hypb (⟨Real.sinh 1 * 3 - 1⟩ : Rnd F64) ⟨3⟩ ⟨1 / 10 ^ 6⟩ 100 = some H ∧ |H.val - 1| ≤ 1 / 10 ^ 6 + 4e-13 := by
  have h0 : 1 ≤ Real.sinh 1 := Real.self_le_sinh_iff.2 zero_le_one
  have h1 : Real.sinh 1 ≤ 2 := by
    rw [Real.sinh_eq]
    have := Real.exp_one_lt_d9
    have := Real.exp_pos (-1)
    linarith
  obtain ⟨H, h, h'⟩ := C68_hypb_f64 (N := ⟨Real.sinh 1 * 3 - 1⟩) (e := ⟨3⟩) (tol := ⟨1 / 10 ^ 6⟩) (max_iter := 100) le_rfl
    (Or.inl ⟨by show 0 ≤ Real.sinh 1 * 3 - 1; linarith, by show (Real.sinh 1 * 3 - 1) / 3 ≤ _; norm_num; linarith⟩)
    (by norm_num) (by norm_num) (by norm_num)
  exact ⟨H, h, h' 1 (by rw [kep_hypb_eq]; ring)⟩

end Adx
