import Verif.Props.C18
import Verif.Props.C68d

/-! # C68, part 5: the elliptic solver in rounded arithmetic ends, and ends accurately

C68_elps is about a loop that has stopped. Here it is shown that it does stop, for eccentricities up to 1/2 and a
tolerance above the rounding errors. -/

namespace Adx
open Spec

/-- The arithmetic at the end of C68_elps_total. -/
theorem elps_arith {e tol τ ν u γ γ1 γ2 m x D : ℝ} (h0 : 0 ≤ e) (h1 : e ≤ 1 / 2) (hu0 : 0 ≤ u) (hτ0 : 0 ≤ τ)
    (ht1 : 0 ≤ tol) (ht2 : tol ≤ 1 / 100) (hτ1 : τ ≤ 1.002 * tol) (hν0 : 0 ≤ ν) (hν1 : ν ≤ 1.002 * u * x) (g0 : 0 ≤ γ)
    (g1 : γ ≤ 1 / 100000) (g2 : 19 * u ≤ γ) (hγ1 : γ1 ≤ γ) (hγ20 : 0 ≤ γ2) (hγ2 : γ2 ≤ γ) (hm : 0 ≤ m) (hx : 0 ≤ x)
    (hD0 : 0 ≤ D) (hxb : x ≤ m + 1 / 2 + D)
    (hD : D * (1 - e) ≤ e * τ ^ 2 / 2 + γ1 * (x + τ + e + m) + (1 + e) * (γ2 * (τ + ν) + ν)) :
    D ≤ 1.01 * e * tol ^ 2 + 5 * (γ * (m + 1)) := by
  have hs : 0 ≤ m + 1 / 2 + D := by linarith
  have c0 : e * τ ^ 2 / 2 ≤ 0.50205 * (e * tol ^ 2) := by
    have h1 : τ ^ 2 ≤ (1.002 * tol) ^ 2 := pow_le_pow_left₀ hτ0 hτ1 2
    have h2 : e * τ ^ 2 ≤ e * (1.002 * tol) ^ 2 := by gcongr
    have h3 : 0 ≤ e * tol ^ 2 := by positivity
    have h4 : e * (1.002 * tol) ^ 2 = 1.004004 * (e * tol ^ 2) := by ring
    rw [h4] at h2
    norm_num at h2 ⊢
    linarith
  have c1 : γ1 * (x + τ + e + m) ≤ γ * (2 * m + 1.1 + D) :=
    mul_le_mul hγ1 (by norm_num at hτ1 ⊢; linarith) (by positivity) g0
  have c2 : ν ≤ 0.06 * (γ * (m + 1 / 2 + D)) := by
    have h2 : u * x ≤ γ / 19 * (m + 1 / 2 + D) := by gcongr; linarith
    have h3 : 0 ≤ γ * (m + 1 / 2 + D) := by positivity
    have h4 : γ / 19 * (m + 1 / 2 + D) = γ * (m + 1 / 2 + D) / 19 := by ring
    rw [mul_assoc] at hν1
    norm_num at hν1 ⊢
    linarith
  have c3 : γ2 * (τ + ν) ≤ γ * (0.02 + ν) := by gcongr; norm_num at hτ1 ⊢; linarith
  have c5 : (1 + e) * (γ2 * (τ + ν) + ν) ≤ 3 / 2 * (γ * (0.02 + ν) + ν) :=
    mul_le_mul (by linarith) (by linarith) (by positivity) (by norm_num)
  have c6 : γ * ν ≤ 1 / 100000 * ν := by gcongr
  have c7 : γ * D ≤ 1 / 100000 * D := by gcongr
  have c8 : D * (1 / 2) ≤ D * (1 - e) := by gcongr; linarith
  have c9 : 0 ≤ e * tol ^ 2 := by positivity
  have c10 : 0 ≤ γ * m := by positivity
  norm_num at *
  linarith

section
variable {F : Fp} {u L : ℝ} (hF : StdModel F u L)
include hF

/-- One Newton step in rounded arithmetic, compared with the exact one from the same point. -/
theorem newton_rnd (x f d : Rnd F) {fs ds κ εf m : ℝ} (hf : |f.val - fs| ≤ εf) (hd : Within u κ d.val ds) (hκ : 0 ≤ κ)
    (hm : 0 < m) (hds : m ≤ ds) (hκu : (κ + 1) * u < 1) :
    let G := (gam u (κ + 1) * (|fs| + εf) + εf) / m
    |(x - f / d).val - (x.val - fs / ds)| ≤ G + u * (|x.val| + |fs| / m + G) := by
  intro G
  have hu0 := hF.u_pos
  have hds0 : 0 < ds := by linarith
  have hε0 : 0 ≤ εf := (abs_nonneg _).trans hf
  have hg : 0 ≤ gam u (κ + 1) := by unfold gam; exact div_nonneg (by nlinarith) (by linarith)
  have hq : Within u (0 + κ + 1) (f / d).val (f.val / ds) := (Within.ex f).div hF hd
  rw [zero_add] at hq
  have hfv : |f.val| ≤ |fs| + εf := by
    calc |f.val| = |fs + (f.val - fs)| := by ring_nf
      _ ≤ |fs| + |f.val - fs| := abs_add_le _ _
      _ ≤ _ := by linarith
  have h1 : |(f / d).val - fs / ds| ≤ G := by
    have hb := hq.bound hF (by linarith) hκu
    rw [abs_div, abs_of_pos hds0] at hb
    have e1 : |f.val / ds - fs / ds| ≤ εf / m := by
      rw [← sub_div, abs_div, abs_of_pos hds0]
      exact div_le_div₀ hε0 hf hm hds
    have e2 : |f.val| / ds ≤ (|fs| + εf) / m := div_le_div₀ (by positivity) hfv hm hds
    have e3 := mul_le_mul_of_nonneg_left e2 hg
    have e4 : G = gam u (κ + 1) * ((|fs| + εf) / m) + εf / m := by simp only [G]; ring
    rw [e4]
    calc |(f / d).val - fs / ds| = |((f / d).val - f.val / ds) + (f.val / ds - fs / ds)| := by ring_nf
      _ ≤ _ := (abs_add_le _ _).trans (by linarith)
  have h2 : |(f / d).val| ≤ |fs| / m + G := by
    have e1 : |fs / ds| ≤ |fs| / m := by
      rw [abs_div, abs_of_pos hds0]
      exact div_le_div_of_nonneg_left (abs_nonneg _) hm hds
    calc |(f / d).val| = |fs / ds + ((f / d).val - fs / ds)| := by ring_nf
      _ ≤ _ := (abs_add_le _ _).trans (by linarith)
  have h3 : |(x - f / d).val - (x.val - (f / d).val)| ≤ u * (|x.val| + |fs| / m + G) := by
    refine (hF.rd _).trans (mul_le_mul_of_nonneg_left ?_ hu0.le)
    exact (abs_sub _ _).trans (by linarith)
  calc |(x - f / d).val - (x.val - fs / ds)|
      = |((x - f / d).val - (x.val - (f / d).val)) - ((f / d).val - fs / ds)| := by ring_nf
    _ ≤ _ := (abs_sub _ _).trans (by linarith)

/-- The artificial previous value `x + 2 tol` does not let the loop stop before the first step. -/
theorem first_test {x tol B : ℝ} (ht : 0 < tol) (hx : |x| ≤ B) (hB : u * B ≤ tol / 1000) :
    tol < |F.rd (x - F.rd (x + F.rd (2 * tol)))| := by
  by_contra hc
  have hu0 := hF.u_pos
  have hus : u ≤ 1 / 1000 := hF.u_small
  have q3 := abs_le_of_rd hF (not_lt.1 hc)
  rw [le_div_iff₀ (by linarith)] at q3
  have q1 := hF.rd (2 * tol)
  have q2 := hF.rd (x + F.rd (2 * tol))
  generalize F.rd (x + F.rd (2 * tol)) = y at *
  generalize F.rd (2 * tol) = t2 at *
  rw [abs_of_pos (by linarith : 0 < 2 * tol)] at q1
  have hut : u * tol ≤ tol / 1000 := by nlinarith
  obtain ⟨a1, a2⟩ := abs_le.1 q1
  have q4 : |x + t2| ≤ B + 3 * tol := by
    refine (abs_add_le _ _).trans ?_
    have : |t2| ≤ 3 * tol := abs_le.2 ⟨by linarith, by linarith⟩
    linarith
  have q5 : u * |x + t2| ≤ tol / 100 := by
    calc u * |x + t2| ≤ u * (B + 3 * tol) := by gcongr
      _ = u * B + 3 * (u * tol) := by ring
      _ ≤ _ := by linarith
  obtain ⟨b1, b2⟩ := abs_le.1 q2
  have q6 : y - x ≤ |x - y| := by rw [abs_sub_comm]; exact le_abs_self _
  have q7 : 3 / 2 * tol ≤ |x - y| := by linarith
  have q8 : |x - y| * (999 / 1000) ≤ |x - y| * (1 - u) := by gcongr; linarith
  linarith

section
variable {M e tol : Rnd F} (h0 : 0 ≤ e.val) (h1 : e.val ≤ 1 / 2) (ht1 : 1 / 10 ^ 8 ≤ tol.val) (ht2 : tol.val ≤ 1 / 100)
  (hsm : 1000 * (gam u (6 * L + 13) * (|M.val| + 1)) ≤ tol.val)
include h0 h1 ht1 ht2 hsm

/-- The size of the rounding error that the hypothesis on the tolerance allows. -/
theorem gam_small : 0 ≤ gam u (6 * L + 13) ∧ gam u (6 * L + 13) ≤ 1 / 100000 ∧ 19 * u ≤ gam u (6 * L + 13) ∧
    gam u (L + 3) ≤ gam u (6 * L + 13) ∧ (6 * L + 13) * u < 1 := by
  have hL1 := hF.one_le
  have hL2 := hF.le_hundred
  have hu0 := hF.u_pos
  have hk := ku_lt hF (k := 6 * L + 13) (by linarith)
  have hg : 0 ≤ gam u (6 * L + 13) := by unfold gam; exact div_nonneg (by nlinarith) (by linarith)
  have hM := abs_nonneg M.val
  refine ⟨hg, by nlinarith, ?_, ?_, hk⟩
  · unfold gam
    rw [le_div_iff₀ (by linarith)]
    nlinarith [mul_pos hu0 hu0, mul_nonneg (by linarith : 0 ≤ 6 * L + 13) hu0.le]
  · unfold gam
    exact div_le_div₀ (by nlinarith) (by nlinarith) (by linarith) (by nlinarith)

/-- One rounded Newton step from a point of residual at most 1, and the exact one. -/
theorem elps_newton_rnd (x : Rnd F) (hx : |kepler_equ_elps x.val e.val M.val| ≤ 1) :
    |(newtonElps M e x).val - newtonElps M.val e.val x.val| ≤ tol.val / 100 := by
  have hL1 := hF.one_le
  have hL2 := hF.le_hundred
  have hu0 := hF.u_pos
  obtain ⟨g0, g1, g2, g3, g4⟩ := gam_small hF h0 h1 ht1 ht2 hsm
  set γ := gam u (6 * L + 13)
  set φ := |kepler_equ_elps x.val e.val M.val| with hφ
  have hφ0 : 0 ≤ φ := abs_nonneg _
  have hM := abs_nonneg M.val
  have hxa : |x.val| ≤ |M.val| + 3 / 2 := by
    have e1 : x.val = kepler_equ_elps x.val e.val M.val + (e.val * Real.sin x.val + M.val) := by rw [kep_elps_eq]; ring
    have e2 : |e.val * Real.sin x.val| ≤ 1 / 2 := by
      rw [abs_mul, abs_of_nonneg h0]
      have := Real.abs_sin_le_one x.val
      nlinarith [abs_nonneg (Real.sin x.val)]
    rw [e1]
    refine (abs_add_le _ _).trans ?_
    have := abs_add_le (e.val * Real.sin x.val) M.val
    linarith
  have hfa : |(kepler_equ_elps x e M).val - kepler_equ_elps x.val e.val M.val| ≤ 2 * γ * (|M.val| + 1) := by
    refine (C67_kepler_elps hF x e M).trans ?_
    have e2 : |e.val * Real.sin x.val| ≤ 1 / 2 := by
      rw [abs_mul, abs_of_nonneg h0]
      have := Real.abs_sin_le_one x.val
      nlinarith [abs_nonneg (Real.sin x.val)]
    calc gam u (L + 3) * (|x.val| + |e.val * Real.sin x.val| + |M.val|) ≤ γ * (2 * (|M.val| + 1)) := by
          gcongr; linarith
      _ = _ := by ring
  have hd1 : 1 / 2 ≤ dE x.val e.val := by linarith [dE_ge h0 x.val]
  have hd0 : 0 < dE x.val e.val := by linarith
  have hdw : Within u (6 * L + 12) (dE x e).val (dE x.val e.val) := by
    have := (near_dE hF x e).within hF (c := 3) (by linarith) hd0.ne' ?_ ?_
    · exact this.mono hF (by linarith)
    · rw [abs_of_pos hd0, abs_mul, abs_of_nonneg h0]
      have := Real.abs_cos_le_one x.val
      nlinarith
    · have : (6 * L + 13) * u ≤ γ := by
        simp only [γ, gam]
        rw [le_div_iff₀ (by linarith)]
        nlinarith [mul_nonneg (by linarith : 0 ≤ 6 * L + 13) hu0.le]
      nlinarith
  have hstep := newton_rnd hF x (kepler_equ_elps x e M) (dE x e) hfa hdw (by linarith) (by norm_num : (0 : ℝ) < 1 / 2)
    hd1 (by rw [show 6 * L + 12 + 1 = 6 * L + 13 by ring]; exact g4)
  rw [show 6 * L + 12 + 1 = 6 * L + 13 by ring] at hstep
  change |(newtonElps M e x).val - newtonElps M.val e.val x.val| ≤ _ at hstep
  change |_| ≤ (γ * (φ + 2 * γ * (|M.val| + 1)) + 2 * γ * (|M.val| + 1)) / (1 / 2)
    + u * (|x.val| + φ / (1 / 2) + (γ * (φ + 2 * γ * (|M.val| + 1)) + 2 * γ * (|M.val| + 1)) / (1 / 2)) at hstep
  set A := γ * (|M.val| + 1) with hA
  have hA0 : 0 ≤ A := by positivity
  have hA1 : A ≤ 1 / 100000 := by linarith
  have hγA : γ ≤ A := by rw [hA]; nlinarith
  have hρ' : 10 * A ≤ tol.val / 100 := by linarith
  refine (hstep.trans ?_).trans hρ'
  · have e0 : 2 * γ * (|M.val| + 1) = 2 * A := by rw [hA]; ring
    rw [e0]
    have e1 : γ * (φ + 2 * A) ≤ 2 * A := by nlinarith
    have e2 : u * (|x.val| + φ / (1 / 2) + (γ * (φ + 2 * A) + 2 * A) / (1 / 2)) ≤ u * (4 * (|M.val| + 1)) := by
      gcongr
      linarith
    have e3 : u * (4 * (|M.val| + 1)) ≤ A := by rw [hA]; nlinarith
    linarith

/-- Moving the argument moves the residual by at most 3/2 as much. -/
theorem elps_lip (y z : ℝ) :
    |kepler_equ_elps y e.val M.val| ≤ |kepler_equ_elps z e.val M.val| + 3 / 2 * |y - z| := by
  have e1 : kepler_equ_elps y e.val M.val = kepler_equ_elps z e.val M.val + ((y - z)
      - e.val * (Real.sin y - Real.sin z)) := by rw [kep_elps_eq, kep_elps_eq]; ring
  have e2 : |Real.sin y - Real.sin z| ≤ |y - z| := by
    have := Real.abs_sin_sub_sin_le y z
    simpa using this
  have e3 : |(y - z) - e.val * (Real.sin y - Real.sin z)| ≤ 3 / 2 * |y - z| := by
    refine (abs_sub _ _).trans ?_
    rw [abs_mul, abs_of_nonneg h0]
    nlinarith [abs_nonneg (y - z), abs_nonneg (Real.sin y - Real.sin z)]
  rw [e1]
  exact (abs_add_le _ _).trans (by linarith)

/-- One rounded Newton step from a point of residual at most 1: the residual is squared, up to rounding. -/
theorem elps_step_rnd (x : Rnd F) {φ : ℝ} (hx : |kepler_equ_elps x.val e.val M.val| ≤ φ) (hφ : φ ≤ 1) :
    |kepler_equ_elps (newtonElps M e x).val e.val M.val| ≤ φ ^ 2 + tol.val / 50 ∧
    |(newtonElps M e x).val - x.val| ≤ 2 * φ + tol.val / 50 := by
  have hρ := elps_newton_rnd hF h0 h1 ht1 ht2 hsm x (hx.trans hφ)
  have hl := elps_lip hF h0 h1 ht1 ht2 hsm (newtonElps M e x).val (newtonElps M.val e.val x.val)
  have hsz := elps_newton_step h0 (by linarith) M.val x.val
  have hrz := elps_newton_residual h0 (by linarith) M.val x.val
  generalize (newtonElps M e x).val = y at *
  generalize newtonElps M.val e.val x.val = z at *
  have hφ0 : 0 ≤ φ := (abs_nonneg _).trans hx
  have hsz' : |z - x.val| ≤ 2 * φ := by
    refine hsz.trans ?_
    rw [div_le_iff₀ (by linarith)]
    nlinarith
  constructor
  · have hzz : |kepler_equ_elps z e.val M.val| ≤ φ ^ 2 := by
      refine hrz.trans ?_
      have : (z - x.val) ^ 2 ≤ (2 * φ) ^ 2 := by rw [← sq_abs]; exact pow_le_pow_left₀ (abs_nonneg _) hsz' 2
      nlinarith [sq_nonneg (z - x.val)]
    linarith
  · calc |y - x.val| = |(z - x.val) + (y - z)| := by ring_nf
      _ ≤ _ := (abs_add_le _ _).trans (by linarith)

/-- The rounded starting value. -/
theorem elps_start_rnd : |(elpsStart M e).val - elpsStart M.val e.val| ≤ tol.val / 100 := by
  have hL1 := hF.one_le
  have hL2 := hF.le_hundred
  have hu0 := hF.u_pos
  obtain ⟨g0, g1, g2, g3, g4⟩ := gam_small hF h0 h1 ht1 ht2 hsm
  have hM := abs_nonneg M.val
  set w : Rnd F := ℓ 2 * M with hw
  have hww : |w.val - 2 * M.val| ≤ u * (2 * |M.val|) := by
    have e1 : w.val = F.rd (2 * M.val) := by
      change F.rd (F.rd ((2 : ℕ) : ℝ) * M.val) = _
      rw [hF.lit 2 (by norm_num)]; norm_num
    rw [e1]
    refine (hF.rd _).trans_eq ?_
    rw [abs_mul]; norm_num
  have n1 := ((Within.ex M).near hF).add hF (((Within.ex e).mul hF (within_sin hF M)).near hF)
  have n2 := (((((Within.ex e).sq hF).mul hF (within_sin hF w)).div hF (Within.lit hF 2 (by norm_num))).near hF)
  have n3 := n1.add hF n2
  have s1 : |e.val * Real.sin M.val| ≤ 1 / 2 := by
    rw [abs_mul, abs_of_nonneg h0]
    nlinarith [Real.abs_sin_le_one M.val, abs_nonneg (Real.sin M.val)]
  have s2 : |e.val ^ 2 * Real.sin w.val / ((2 : ℕ) : ℝ)| ≤ 1 / 2 := by
    rw [abs_div, abs_mul, abs_of_nonneg (sq_nonneg _)]
    have := Real.abs_sin_le_one w.val
    norm_num
    nlinarith [abs_nonneg (Real.sin w.val), sq_nonneg e.val]
  have b := (n3.mono hF (j := 6 * L + 13) (n := |M.val| + 1)
    (by simp only [max_def]; split_ifs <;> linarith) (by linarith)).bound hF (by linarith) g4
  change |(elpsStart M e).val - _| ≤ _ at b
  have d1 : |Real.sin w.val - Real.sin (2 * M.val)| ≤ u * (2 * |M.val|) := by
    refine le_trans ?_ hww
    have := Real.abs_sin_sub_sin_le w.val (2 * M.val)
    simpa using this
  have e0 : elpsStart M.val e.val = M.val + e.val * Real.sin M.val + e.val ^ 2 * Real.sin w.val / ((2 : ℕ) : ℝ)
      - e.val ^ 2 / 2 * (Real.sin w.val - Real.sin (2 * M.val)) := by
    simp only [elpsStart, sin_real, Nat.cast_ofNat]; ring
  have d2 : |e.val ^ 2 / 2 * (Real.sin w.val - Real.sin (2 * M.val))| ≤ u * |M.val| := by
    rw [abs_mul, abs_of_nonneg (by positivity)]
    have : e.val ^ 2 / 2 ≤ 1 / 2 := by nlinarith
    calc e.val ^ 2 / 2 * |Real.sin w.val - Real.sin (2 * M.val)| ≤ 1 / 2 * (u * (2 * |M.val|)) := by gcongr
      _ = _ := by ring
  have d3 : u * |M.val| ≤ gam u (6 * L + 13) * (|M.val| + 1) := by nlinarith
  rw [e0]
  generalize M.val + e.val * Real.sin M.val + e.val ^ 2 * Real.sin w.val / ((2 : ℕ) : ℝ) = p at b ⊢
  generalize e.val ^ 2 / 2 * (Real.sin w.val - Real.sin (2 * M.val)) = r at d2 ⊢
  calc |(elpsStart M e).val - (p - r)| = |((elpsStart M e).val - p) + r| := by ring_nf
    _ ≤ _ := (abs_add_le _ _).trans (by linarith)

/-- C68: the elliptic loop stops on its test within six steps, having made at least one. -/
theorem C68_elps_stops {max_iter : ℕ} (hn : 7 ≤ max_iter) :
    ∃ k E Ep, k ≤ 5 ∧ elpsRun M e tol max_iter = some (k + 1, E, Ep) := by
  have hL1 := hF.one_le
  have hL2 := hF.le_hundred
  have hu0 := hF.u_pos
  have hu1 := hF.lt_one
  obtain ⟨g0, g1, g2, g3, g4⟩ := gam_small hF h0 h1 ht1 ht2 hsm
  have hstart := elps_start_rnd hF h0 h1 ht1 ht2 hsm
  set it := fun j => (newtonElps M e)^[j] (elpsStart M e) with hit
  have hits : ∀ j, it (j + 1) = newtonElps M e (it j) := fun j => Function.iterate_succ_apply' _ _ _
  -- residuals
  have r0 : |kepler_equ_elps (it 0).val e.val M.val| ≤ 23 / 100 := by
    refine (elps_lip hF h0 h1 ht1 ht2 hsm _ (elpsStart M.val e.val)).trans ?_
    have := elpsStart_residual h0 M.val
    have h3 : e.val ^ 3 ≤ (1 / 2) ^ 3 := pow_le_pow_left₀ h0 h1 3
    have h4 : (1 + (1 + e.val / 2) ^ 2 / 2) ≤ 57 / 32 := by nlinarith
    have h5 : e.val ^ 3 * (1 + (1 + e.val / 2) ^ 2 / 2) ≤ (1 / 2) ^ 3 * (57 / 32) :=
      mul_le_mul h3 h4 (by positivity) (by positivity)
    have h6 : |(it 0).val - elpsStart M.val e.val| ≤ tol.val / 100 := hstart
    norm_num at h5
    linarith
  have step := fun j {φ : ℝ} => elps_step_rnd hF h0 h1 ht1 ht2 hsm (it j) (φ := φ)
  have r1 : |kepler_equ_elps (it 1).val e.val M.val| ≤ 54 / 1000 := by
    rw [hits]; exact (step 0 r0 (by norm_num)).1.trans (by norm_num; linarith)
  have r2 : |kepler_equ_elps (it 2).val e.val M.val| ≤ 4 / 1000 := by
    rw [hits]; exact (step 1 r1 (by norm_num)).1.trans (by norm_num; linarith)
  have r3 : |kepler_equ_elps (it 3).val e.val M.val| ≤ 16 / 10 ^ 6 + tol.val / 50 := by
    rw [hits]; exact (step 2 r2 (by norm_num)).1.trans (by norm_num)
  have r4 : |kepler_equ_elps (it 4).val e.val M.val| ≤ 1 / 10 ^ 9 + tol.val / 40 := by
    rw [hits]; refine (step 3 r3 (by norm_num; linarith)).1.trans ?_
    nlinarith
  have s5 : |(it 5).val - (it 4).val| ≤ tol.val / 2 := by
    rw [hits]; refine (step 4 r4 (by norm_num; linarith)).2.trans ?_
    linarith
  have small5 : |F.rd ((it 5).val - (it 4).val)| ≤ tol.val := by
    have := hF.rd ((it 5).val - (it 4).val)
    have h2 : |F.rd ((it 5).val - (it 4).val)| ≤ |(it 5).val - (it 4).val| + u * |(it 5).val - (it 4).val| := by
      calc |F.rd ((it 5).val - (it 4).val)|
          = |((it 5).val - (it 4).val) + (F.rd ((it 5).val - (it 4).val) - ((it 5).val - (it 4).val))| := by ring_nf
        _ ≤ _ := (abs_add_le _ _).trans (by linarith)
    nlinarith
  obtain ⟨k, hk, hrun, -, hbefore, hstop⟩ := C13_elps M e tol max_iter
  rcases k with _ | k
  · -- the first test cannot succeed
    exfalso
    have h := hstop (by omega)
    simp only [Function.iterate_zero, id_eq, prevOf, Rnd.lt_rnd, Rnd.val_abs, Rnd.val_sub, Rnd.val_add, Rnd.val_mul,
      decide_eq_false_iff_not, not_lt] at h
    have e2 : (ℓ 2 : Rnd F).val = 2 := (hF.lit 2 (by norm_num)).trans (by norm_num)
    rw [e2] at h
    have hM := abs_nonneg M.val
    have q0 : |(elpsStart M e).val| ≤ |M.val| + 1 := by
      have e3 : (elpsStart M e).val = kepler_equ_elps (it 0).val e.val M.val
          + (e.val * Real.sin (it 0).val + M.val) := by
        rw [kep_elps_eq]
        change (elpsStart M e).val = (elpsStart M e).val - _ - _ + _
        ring
      have e4 : |e.val * Real.sin (it 0).val| ≤ 1 / 2 := by
        rw [abs_mul, abs_of_nonneg h0]
        nlinarith [Real.abs_sin_le_one (it 0).val, abs_nonneg (Real.sin (it 0).val)]
      rw [e3]
      refine (abs_add_le _ _).trans ?_
      have := abs_add_le (e.val * Real.sin (it 0).val) M.val
      linarith
    exact absurd h (not_le.2 (first_test hF (by linarith) q0 (by nlinarith)))
  · refine ⟨k, _, _, ?_, hrun⟩
    by_contra hc
    have h := hbefore 5 (by omega)
    simp only [prevOf, Rnd.lt_rnd, Rnd.val_abs, Rnd.val_sub, decide_eq_true_eq] at h
    exact absurd small5 (not_le.2 h)

/-- C68: the elliptic solver in rounded arithmetic, for eccentricities up to 1/2, a tolerance between `1e-8` and `1e-2`
that is a thousand times above the rounding errors, and a limit of at least 7 steps: it returns, and the result is within
`1.01 e tol² + 5 γ (|M| + 1)` of the exact eccentric anomaly. -/
theorem C68_elps_total {max_iter : ℕ} (hn : 7 ≤ max_iter) :
    ∃ E, solve_kepler_elps M e tol max_iter = some E ∧ ∀ Es, kepler_equ_elps Es e.val M.val = 0 →
      |E.val - Es| ≤ 1.01 * e.val * tol.val ^ 2 + 5 * (gam u (6 * L + 13) * (|M.val| + 1)) := by
  have hL1 := hF.one_le
  have hL2 := hF.le_hundred
  have hu0 := hF.u_pos
  have hu1 := hF.lt_one
  have hus : u ≤ 1 / 1000 := hF.u_small
  obtain ⟨g0, g1, g2, g3, g4⟩ := gam_small hF h0 h1 ht1 ht2 hsm
  obtain ⟨k, E, Ep, hk, hrun⟩ := C68_elps_stops hF h0 h1 ht1 ht2 hsm hn
  have hq : (1 + e.val) / (1 - e.val) ≤ 3 := by rw [div_le_iff₀ (by linarith)]; linarith
  have hq0 : 0 ≤ (1 + e.val) / (1 - e.val) := div_nonneg (by linarith) (by linarith)
  have hgu : (6 * L + 13) * u ≤ gam u (6 * L + 13) := by
    unfold gam
    rw [le_div_iff₀ (by linarith)]
    nlinarith [mul_nonneg (by linarith : 0 ≤ 6 * L + 13) hu0.le]
  have hs : 5 * ((1 + e.val) / (1 - e.val) * (L + 2) * u) ≤ 1 := by
    calc 5 * ((1 + e.val) / (1 - e.val) * (L + 2) * u) ≤ 5 * (3 * (L + 2) * u) := by gcongr
      _ ≤ 1 := by nlinarith
  obtain ⟨hsol, hacc⟩ := C68_elps hF h0 (by linarith) hrun (by omega) hs
  refine ⟨E, hsol, fun Es hEs => ?_⟩
  have hb := hacc Es hEs
  have hnear : |Es| ≤ |M.val| + 1 / 2 := by
    have e1 : Es = e.val * Real.sin Es + M.val := by rw [kep_elps_eq] at hEs; linarith
    have e2 : |e.val * Real.sin Es| ≤ 1 / 2 := by
      rw [abs_mul, abs_of_nonneg h0]
      nlinarith [Real.abs_sin_le_one Es, abs_nonneg (Real.sin Es)]
    calc |Es| = |e.val * Real.sin Es + M.val| := by rw [← e1]
      _ ≤ _ := (abs_add_le _ _).trans (by linarith)
  set κ := 2 * ((1 + e.val) / (1 - e.val)) * (L + 2) + 1 with hκd
  have hκ : κ ≤ 6 * L + 13 := by rw [hκd]; nlinarith
  have hκ0 : 0 ≤ κ := by rw [hκd]; positivity
  have hγκ : gam u κ ≤ gam u (6 * L + 13) := by
    unfold gam
    exact div_le_div₀ (by nlinarith) (by nlinarith) (by linarith) (by nlinarith)
  have hγκ0 : 0 ≤ gam u κ := by unfold gam; exact div_nonneg (by nlinarith) (by nlinarith)
  have hM := abs_nonneg M.val
  set τ := tol.val / (1 - u) with hτ
  have hτ1 : τ ≤ 1.002 * tol.val := by rw [hτ, div_le_iff₀ (by linarith)]; nlinarith
  have hτ0 : 0 ≤ τ := div_nonneg (by linarith) (by linarith)
  set ν := u / (1 - u) * |E.val| with hν
  have hν1 : ν ≤ 1.002 * u * |E.val| := by
    rw [hν]
    refine mul_le_mul_of_nonneg_right ?_ (abs_nonneg _)
    rw [div_le_iff₀ (by linarith)]; nlinarith
  have hE0 := abs_nonneg E.val
  have hν0 : 0 ≤ ν := mul_nonneg (div_nonneg hu0.le (by linarith)) hE0
  have hT := abs_sub_abs_le_abs_sub E.val Es
  have hD1 : |E.val - Es| * (1 - e.val) ≤ e.val * τ ^ 2 / 2 + gam u (L + 3) * (|E.val| + τ + e.val + |M.val|)
        + (1 + e.val) * (gam u κ * (τ + ν) + ν) := (le_div_iff₀ (by linarith)).1 hb
  exact elps_arith h0 h1 hu0.le hτ0 (by linarith) ht2 hτ1 hν0 hν1 g0 g1 g2 g3 hγκ0 hγκ hM hE0 (abs_nonneg _)
    (by linarith) hD1

end
end

/-- C68, an instance: `solve_kepler_elps` with its default settings in binary64, for every eccentricity up to 1/2 and every
mean anomaly up to 1000 in size, is within `2e-11` of the exact eccentric anomaly. -/
theorem C68_elps_f64 {M e : Rnd F64} (h0 : 0 ≤ e.val) (h1 : e.val ≤ 1 / 2) (hM : |M.val| ≤ 1000) :
    ∃ E, solve_kepler_elps M e = some E ∧ ∀ Es, kepler_equ_elps Es e.val M.val = 0 → |E.val - Es| ≤ 2e-11 := by
  obtain ⟨t1, t2⟩ := abs_le.1 tol64
  have hg : gam ((2 : ℝ) ^ (-53 : ℤ)) (6 * 1 + 13) ≤ 2.2e-15 := by norm_num [gam]
  have hg0 : 0 ≤ gam ((2 : ℝ) ^ (-53 : ℤ)) (6 * 1 + 13) := by norm_num [gam]
  have hA : gam ((2 : ℝ) ^ (-53 : ℤ)) (6 * 1 + 13) * (|M.val| + 1) ≤ 2.2e-15 * (1000 + 1) := by gcongr
  obtain ⟨E, hE, hb⟩ := C68_elps_total stdModel_F64 (M := M) (e := e) (tol := defaultTol) h0 h1 (by linarith)
    (by linarith) (by norm_num at hA ⊢; linarith) (max_iter := 20) (by norm_num)
  refine ⟨E, hE, fun Es hEs => (hb Es hEs).trans ?_⟩
  have : (defaultTol : Rnd F64).val ^ 2 ≤ (1.1e-6) ^ 2 := pow_le_pow_left₀ (by linarith) (by linarith) 2
  have h2 : e.val * (defaultTol : Rnd F64).val ^ 2 ≤ 1 / 2 * (1.1e-6) ^ 2 := by gcongr
  norm_num at h2 hA ⊢
  linarith

end Adx
