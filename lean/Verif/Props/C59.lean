import Verif.Props.C58

/-! # C59: convergence of `kepler`'s root search on parabolas

On a parabola `solve_kepler_uni` is Newton's method for Barker's equation, started at the initial state. -/

namespace Adx
open Set Spec

variable {r v : V3 ℝ} {mu : ℝ}

/-- A step of Newton's method for Barker's equation `(x^3 + 3 p x)/6 = B`. -/
noncomputable def parStep (p B x : ℝ) : ℝ := x - ((x ^ 3 + 3 * p * x) / 6 - B) / ((x ^ 2 + p) / 2)

/-- The constant of Barker's equation. -/
noncomputable def parB (r v : V3 ℝ) (mu t : ℝ) : ℝ :=
  (sigma_fn r v mu ^ 3 + 3 * pOf r v mu * sigma_fn r v mu) / 6 + Real.sqrt mu * t

theorem alphaOf_par (hmu : 0 < mu) (hh : angular_momentum r v ≠ ⟨0, 0, 0⟩)
    (hpar : V3.norm v ^ 2 / 2 - mu / V3.norm r = 0) : alphaOf r v mu = 0 := by
  have hn := (V3.norm_pos r).2 (pos_ne hmu hh)
  rw [alphaOf, inv_semimajor_axis, invA, ← V3.norm_sq]
  field_simp at hpar ⊢
  linarith

theorem norm_par (hmu : 0 < mu) (hh : angular_momentum r v ≠ ⟨0, 0, 0⟩)
    (hpar : V3.norm v ^ 2 / 2 - mu / V3.norm r = 0) : V3.norm r = (sigma_fn r v mu ^ 2 + pOf r v mu) / 2 := by
  have := pOf_inv hmu hh
  rw [alphaOf_par hmu hh hpar] at this
  linarith

/-- C59: the iterates of `solve_kepler_uni` on a parabola are those of Newton's method for Barker's equation,
started at the initial `D = r·v/√mu`. -/
theorem C59_parabolic_newton (hmu : 0 < mu) (hh : angular_momentum r v ≠ ⟨0, 0, 0⟩)
    (hpar : V3.norm v ^ 2 / 2 - mu / V3.norm r = 0) (t : ℝ) (k : ℕ) :
    (newtonUni t 0 (V3.norm r) (sigma_fn r v mu) mu)^[k] (uniStart t 0 mu)
      = (parStep (pOf r v mu) (parB r v mu t))^[k] (sigma_fn r v mu) - sigma_fn r v mu := by
  induction k with
  | zero => simp [uniStart]
  | succ k ih =>
    rw [Function.iterate_succ_apply', Function.iterate_succ_apply', ih, newtonUni,
      C53_parabolic_equation hmu hh hpar, dchi_eq, radU, U_zero_right, U_zero_right, U_zero_right]
    set x := (parStep (pOf r v mu) (parB r v mu t))^[k] (sigma_fn r v mu)
    have h1 := norm_par hmu hh hpar
    have h2 : V3.norm r * ((x - sigma_fn r v mu) ^ 0 / ((Nat.factorial 0 : ℕ) : ℝ))
        + sigma_fn r v mu * ((x - sigma_fn r v mu) ^ 1 / ((Nat.factorial 1 : ℕ) : ℝ))
        + (x - sigma_fn r v mu) ^ 2 / ((Nat.factorial 2 : ℕ) : ℝ) = (x ^ 2 + pOf r v mu) / 2 := by
      rw [h1]; norm_num [Nat.factorial]; ring
    rw [h2, parStep, parB]
    ring

section
variable {q a : ℝ} (hq : 0 < q)
include hq

theorem parStep_sub (x : ℝ) : parStep (q ^ 2) ((a ^ 3 + 3 * q ^ 2 * a) / 6) x - a
    = (x - a) ^ 2 * (2 * x + a) / (3 * (x ^ 2 + q ^ 2)) := by
  have : 0 < x ^ 2 + q ^ 2 := by positivity
  rw [parStep]
  field_simp
  ring

theorem par_lin_left {x : ℝ} (ha : 0 ≤ a) (hx : 2 * x + a ≤ 0) :
    |parStep (q ^ 2) ((a ^ 3 + 3 * q ^ 2 * a) / 6) x - a| ≤ 3 / 4 * |x - a| := by
  rw [parStep_sub hq, abs_div, abs_mul, abs_of_nonneg (sq_nonneg _), abs_of_nonpos hx,
    abs_of_pos (by positivity : 0 < 3 * (x ^ 2 + q ^ 2)), abs_of_nonpos (by linarith : x - a ≤ 0),
    div_le_iff₀ (by positivity)]
  have h1 : (a - x) * -(2 * x + a) ≤ 9 / 4 * (x ^ 2 + q ^ 2) := by nlinarith [sq_nonneg (x + 2 * a)]
  nlinarith

/-- Right of a non-negative root. -/
theorem par_right {x : ℝ} (ha : 0 ≤ a) (hx : a ≤ x) :
    0 ≤ parStep (q ^ 2) ((a ^ 3 + 3 * q ^ 2 * a) / 6) x - a ∧
    parStep (q ^ 2) ((a ^ 3 + 3 * q ^ 2 * a) / 6) x - a ≤ 2 / 3 * (x - a) ∧
    parStep (q ^ 2) ((a ^ 3 + 3 * q ^ 2 * a) / 6) x - a ≤ 1 / (2 * q) * (x - a) ^ 2 := by
  have hpos : 0 < 3 * (x ^ 2 + q ^ 2) := by positivity
  rw [parStep_sub hq]
  refine ⟨div_nonneg (mul_nonneg (sq_nonneg _) (by linarith)) hpos.le, ?_, ?_⟩
  · rw [div_le_iff₀ hpos]
    have h1 : (x - a) * (2 * x + a) ≤ 2 * (x ^ 2 + q ^ 2) := by nlinarith
    nlinarith
  · rw [div_le_iff₀ hpos]
    have h1 : 2 * x + a ≤ 1 / (2 * q) * (3 * (x ^ 2 + q ^ 2)) := by
      rw [div_mul_eq_mul_div, le_div_iff₀ (by positivity)]
      nlinarith [sq_nonneg (x - q)]
    calc (x - a) ^ 2 * (2 * x + a) ≤ (x - a) ^ 2 * (1 / (2 * q) * (3 * (x ^ 2 + q ^ 2))) :=
          mul_le_mul_of_nonneg_left h1 (sq_nonneg _)
      _ = _ := by ring

/-- The iterates once right of a non-negative root. -/
theorem par_run {y D : ℝ} (ha : 0 ≤ a) (hy : a ≤ y) (hD : y - a ≤ D) {n : ℕ}
    (hn : (2 / 3) ^ n * D ≤ q) (m : ℕ) :
    a ≤ (parStep (q ^ 2) ((a ^ 3 + 3 * q ^ 2 * a) / 6))^[n + m] y ∧
    (parStep (q ^ 2) ((a ^ 3 + 3 * q ^ 2 * a) / 6))^[n + m] y - a ≤ (1 / 2) ^ 2 ^ m * (2 * q) ∧
    (parStep (q ^ 2) ((a ^ 3 + 3 * q ^ 2 * a) / 6))^[n + m] y ≤ y := by
  set g := parStep (q ^ 2) ((a ^ 3 + 3 * q ^ 2 * a) / 6) with hg
  have hin : ∀ k, a ≤ g^[k] y := by
    intro k
    induction k with
    | zero => exact hy
    | succ k ih =>
      rw [Function.iterate_succ_apply']
      linarith [(par_right hq ha ih).1]
  have hdec : ∀ k, g^[k + 1] y ≤ g^[k] y := fun k => by
    rw [Function.iterate_succ_apply']
    linarith [(par_right hq ha (hin k)).2.1, hin k]
  have hanti : Antitone fun k => g^[k] y := antitone_nat_of_succ_le hdec
  refine ⟨hin _, ?_, hanti (Nat.zero_le _)⟩
  have := decay (δ := fun k => g^[k] y - a) (ρ := 2 / 3) (c := 1 / (2 * q)) (D := D) (n := n) (by norm_num)
    (by positivity) (fun k => sub_nonneg.2 (hin k)) hD
    (fun k => by
      show g^[k + 1] y - a ≤ _
      rw [Function.iterate_succ_apply']; exact (par_right hq ha (hin k)).2.1)
    (fun k => by
      show g^[k + 1] y - a ≤ _
      rw [Function.iterate_succ_apply']; exact (par_right hq ha (hin k)).2.2)
    (by rw [mul_one_div, div_le_div_iff₀ (by positivity) (by norm_num)]; linarith) m
  rwa [div_div_eq_mul_div, div_one] at this

theorem par_resid {x : ℝ} (ha : 0 ≤ a) (hx : a ≤ x) :
    0 ≤ (x ^ 3 + 3 * q ^ 2 * x) / 6 - (a ^ 3 + 3 * q ^ 2 * a) / 6 ∧
    (x ^ 3 + 3 * q ^ 2 * x) / 6 - (a ^ 3 + 3 * q ^ 2 * a) / 6 ≤ (x - a) * ((x ^ 2 + q ^ 2) / 2) := by
  have h : (x ^ 3 + 3 * q ^ 2 * x) / 6 - (a ^ 3 + 3 * q ^ 2 * a) / 6
      = (x - a) * ((x ^ 2 + x * a + a ^ 2) / 6 + q ^ 2 / 2) := by ring
  rw [h]
  have hx0 : 0 ≤ x := ha.trans hx
  refine ⟨mul_nonneg (by linarith) (by positivity), mul_le_mul_of_nonneg_left ?_ (by linarith)⟩
  nlinarith

theorem par_small {x : ℝ} (ha : 0 ≤ a) (haq : a ≤ q / 2) :
    |parStep (q ^ 2) ((a ^ 3 + 3 * q ^ 2 * a) / 6) x - a| ≤ 3 / 4 * |x - a| ∧
    |parStep (q ^ 2) ((a ^ 3 + 3 * q ^ 2 * a) / 6) x - a| ≤ 1 / (2 * q) * |x - a| ^ 2 := by
  have hpos : 0 < 3 * (x ^ 2 + q ^ 2) := by positivity
  have hquad : |parStep (q ^ 2) ((a ^ 3 + 3 * q ^ 2 * a) / 6) x - a| ≤ 1 / (2 * q) * |x - a| ^ 2 := by
    rw [parStep_sub hq, abs_div, abs_mul, abs_of_nonneg (sq_nonneg (x - a)), abs_of_pos hpos, sq_abs,
      div_le_iff₀ hpos]
    have h1 : |2 * x + a| ≤ 1 / (2 * q) * (3 * (x ^ 2 + q ^ 2)) := by
      rw [div_mul_eq_mul_div, le_div_iff₀ (by positivity)]
      rcases abs_cases (2 * x + a) with ⟨h, -⟩ | ⟨h, -⟩ <;> rw [h] <;>
        nlinarith [sq_nonneg (3 * x - 2 * q), sq_nonneg (3 * x + 2 * q)]
    calc (x - a) ^ 2 * |2 * x + a| ≤ (x - a) ^ 2 * (1 / (2 * q) * (3 * (x ^ 2 + q ^ 2))) :=
          mul_le_mul_of_nonneg_left h1 (sq_nonneg _)
      _ = _ := by ring
  refine ⟨?_, hquad⟩
  rcases le_total (2 * x + a) 0 with h | h
  · exact par_lin_left hq ha h
  · rcases le_total a x with h' | h'
    · obtain ⟨h1, h2, -⟩ := par_right hq ha h'
      rw [abs_of_nonneg h1, abs_of_nonneg (by linarith)]
      linarith
    · refine hquad.trans ?_
      have hle : |x - a| ≤ 3 / 4 * q := by rw [abs_of_nonpos (by linarith)]; linarith
      rw [div_mul_eq_mul_div, div_le_iff₀ (by positivity), one_mul]
      nlinarith [abs_nonneg (x - a)]

/-- From any side, towards a non-negative root. -/
theorem par_any {s : ℝ} (ha : 0 ≤ a) (ha' : a ≤ 20 * q) (hs : |s| ≤ 50 * q) (m : ℕ) :
    |(parStep (q ^ 2) ((a ^ 3 + 3 * q ^ 2 * a) / 6))^[42 + m] s - a| ≤ (1 / 2) ^ 2 ^ m * (2 * q) ∧
    |(parStep (q ^ 2) ((a ^ 3 + 3 * q ^ 2 * a) / 6))^[42 + m] s| ≤ 20000 * q := by
  set g := parStep (q ^ 2) ((a ^ 3 + 3 * q ^ 2 * a) / 6) with hg
  obtain ⟨hs1, hs2⟩ := abs_le.1 hs
  have hmono : ∀ m' : ℕ, m ≤ m' → (1 / 2 : ℝ) ^ 2 ^ m' * (2 * q) ≤ (1 / 2) ^ 2 ^ m * (2 * q) := fun m' h =>
    mul_le_mul_of_nonneg_right (pow_le_pow_of_le_one (by norm_num) (by norm_num)
      (Nat.pow_le_pow_right (by norm_num) h)) (by positivity)
  rcases le_total a (q / 2) with hc | hc
  · have hlin : ∀ k, |g^[k + 1] s - a| ≤ 3 / 4 * |g^[k] s - a| := fun k => by
      rw [Function.iterate_succ_apply']; exact (par_small hq ha hc).1
    have h0 : |s - a| ≤ 50.5 * q := by rw [abs_le]; constructor <;> linarith
    have hd := decay (δ := fun k => |g^[k] s - a|) (ρ := 3 / 4) (c := 1 / (2 * q)) (D := 50.5 * q) (n := 14)
      (by norm_num) (by positivity) (fun k => abs_nonneg _) h0 hlin
      (fun k => by
        show |g^[k + 1] s - a| ≤ _
        rw [Function.iterate_succ_apply']; exact (par_small hq ha hc).2)
      (by
        rw [mul_one_div, div_le_div_iff₀ (by positivity) (by norm_num)]
        have : ((3 : ℝ) / 4) ^ 14 * 50.5 ≤ 1 := by norm_num
        nlinarith) (28 + m)
    rw [div_div_eq_mul_div, div_one, ← add_assoc] at hd
    have hall : ∀ k, |g^[k] s - a| ≤ 50.5 * q := by
      intro k
      induction k with
      | zero => exact h0
      | succ k ih => exact (hlin k).trans (by linarith [abs_nonneg (g^[k] s - a)])
    refine ⟨hd.trans (hmono _ (by omega)), ?_⟩
    have := abs_le.1 (hall (42 + m))
    rw [abs_le]; constructor <;> linarith
  · -- the first iterate from where the step overshoots
    have hex : ∃ j, 0 < 2 * g^[j] s + a ∧ j ≤ 16 ∧ (∀ i < j, 2 * g^[i] s + a ≤ 0) := by
      by_contra hno
      push Not at hno
      have hle : ∀ j, j ≤ 16 → 2 * g^[j] s + a ≤ 0 := by
        intro j
        induction j using Nat.strong_induction_on with
        | _ j ih =>
          intro hj
          by_contra hpos
          push Not at hpos
          obtain ⟨i, hi, hi'⟩ := hno j hpos hj
          linarith [ih i hi (by omega)]
      have hdec : ∀ j, j ≤ 16 → |g^[j] s - a| ≤ (3 / 4) ^ j * (70 * q) := by
        intro j
        induction j with
        | zero => intro _; simp only [Function.iterate_zero, id_eq, pow_zero, one_mul]; rw [abs_le]; constructor <;> linarith
        | succ j ih =>
          intro hj
          rw [Function.iterate_succ_apply']
          refine (par_lin_left hq ha (hle j (by omega))).trans ?_
          have := ih (by omega)
          rw [pow_succ']
          linarith
      have h1 := hdec 16 le_rfl
      have h2 := hle 16 le_rfl
      rw [abs_of_nonpos (by linarith)] at h1
      have : ((3 : ℝ) / 4) ^ 16 * 70 ≤ 0.74 := by norm_num
      nlinarith
    obtain ⟨j, hj, hj16, hbefore⟩ := hex
    -- an iterate right of the root
    have hright : ∃ l, l ≤ 17 ∧ a ≤ g^[l] s ∧ g^[l] s - a ≤ 18000 * q := by
      rcases le_total a (g^[j] s) with h | h
      · refine ⟨j, by omega, h, ?_⟩
        rcases j with _ | j
        · simp only [Function.iterate_zero, id_eq]; linarith
        · have h1 := hbefore j (by omega)
          have h2 := parStep_sub (a := a) hq (g^[j] s)
          have h3 : (g^[j] s - a) ^ 2 * (2 * g^[j] s + a) / (3 * ((g^[j] s) ^ 2 + q ^ 2)) ≤ 0 :=
            div_nonpos_of_nonpos_of_nonneg (mul_nonpos_of_nonneg_of_nonpos (sq_nonneg _) h1) (by positivity)
          rw [Function.iterate_succ_apply', h2]
          exact h3.trans (by positivity)
      · refine ⟨j + 1, by omega, ?_, ?_⟩ <;> rw [Function.iterate_succ_apply'] <;>
          have h2 := parStep_sub (a := a) hq (g^[j] s)
        · have : 0 ≤ (g^[j] s - a) ^ 2 * (2 * g^[j] s + a) / (3 * ((g^[j] s) ^ 2 + q ^ 2)) :=
            div_nonneg (mul_nonneg (sq_nonneg _) hj.le) (by positivity)
          linarith
        · rw [h2, div_le_iff₀ (by positivity)]
          have e1 : (g^[j] s - a) ^ 2 ≤ 9 / 4 * a ^ 2 := by nlinarith
          have e2 : a ^ 3 ≤ 8000 * q ^ 3 := by
            have := pow_le_pow_left₀ ha ha' 3
            rw [mul_pow] at this; linarith
          calc (g^[j] s - a) ^ 2 * (2 * g^[j] s + a) ≤ 9 / 4 * a ^ 2 * (3 * a) :=
                mul_le_mul e1 (by linarith) hj.le (by positivity)
            _ = 27 / 4 * a ^ 3 := by ring
            _ ≤ 27 / 4 * (8000 * q ^ 3) := by linarith
            _ = 18000 * q * (3 * q ^ 2) := by ring
            _ ≤ _ := by
                refine mul_le_mul_of_nonneg_left ?_ (by positivity)
                nlinarith [sq_nonneg (g^[j] s)]
    obtain ⟨l, hl, hla, hlD⟩ := hright
    obtain ⟨m', hm'⟩ : ∃ m', 42 + m = (25 + m') + l := ⟨17 + m - l, by omega⟩
    obtain ⟨h1, h2, h3⟩ := par_run hq ha hla hlD (n := 25) (by
      have : ((2 : ℝ) / 3) ^ 25 * 18000 ≤ 1 := by norm_num
      nlinarith) m'
    rw [← Function.iterate_add_apply, ← hm'] at h1 h2 h3
    refine ⟨?_, ?_⟩
    · rw [abs_of_nonneg (by linarith)]
      exact h2.trans (hmono _ (by omega))
    · rw [abs_of_nonneg (by linarith)]
      linarith

end

/-- The solution of Barker's equation is `D` of the exactly propagated state. -/
theorem par_root (hmu : 0 < mu) (hh : angular_momentum r v ≠ ⟨0, 0, 0⟩)
    (hpar : V3.norm v ^ 2 / 2 - mu / V3.norm r = 0) (t : ℝ) :
    parB r v mu t = (sigma_fn (exactProp r v mu t).1 (exactProp r v mu t).2 mu ^ 3
      + 3 * pOf r v mu * sigma_fn (exactProp r v mu t).1 (exactProp r v mu t).2 mu) / 6 := by
  have h1 := isRoot_exactChi hmu hh t (r := r) (v := v)
  have h2 := C53_parabolic_equation hmu hh hpar t (exactChi r v mu t + sigma_fn r v mu)
  rw [add_sub_cancel_right] at h2
  rw [IsRoot, alphaOf_par hmu hh hpar, h2] at h1
  have h3 := (C53_parabolic_motion hmu hh hpar (t := t) (D := exactChi r v mu t + sigma_fn r v mu) (by linarith)).1
  rw [h3, parB]
  linarith

theorem par_iter_neg (p B x : ℝ) (k : ℕ) : (parStep p (-B))^[k] (-x) = -(parStep p B)^[k] x := by
  induction k with
  | zero => rfl
  | succ k ih =>
    rw [Function.iterate_succ_apply', Function.iterate_succ_apply', ih, parStep, parStep]
    ring

/-- From any side, towards any root: the residual. -/
theorem par_any_resid {q a s : ℝ} (hq : 0 < q) (ha : |a| ≤ 20 * q) (hs : |s| ≤ 50 * q) (m : ℕ) :
    |(((parStep (q ^ 2) ((a ^ 3 + 3 * q ^ 2 * a) / 6))^[42 + m] s) ^ 3
      + 3 * q ^ 2 * ((parStep (q ^ 2) ((a ^ 3 + 3 * q ^ 2 * a) / 6))^[42 + m] s)) / 6
      - (a ^ 3 + 3 * q ^ 2 * a) / 6| ≤ q ^ 3 * (10 ^ 9 * (1 / 2) ^ 2 ^ m) := by
  have key : |(parStep (q ^ 2) ((a ^ 3 + 3 * q ^ 2 * a) / 6))^[42 + m] s - a| ≤ (1 / 2) ^ 2 ^ m * (2 * q) ∧
      |(parStep (q ^ 2) ((a ^ 3 + 3 * q ^ 2 * a) / 6))^[42 + m] s| ≤ 20000 * q := by
    rcases le_total 0 a with h | h
    · exact par_any hq h ((le_abs_self a).trans ha) hs m
    · have := par_any hq (neg_nonneg.2 h) ((neg_le_abs a).trans ha) (s := -s) (by rwa [abs_neg]) m
      rw [show ((-a) ^ 3 + 3 * q ^ 2 * -a) / 6 = -((a ^ 3 + 3 * q ^ 2 * a) / 6) by ring, par_iter_neg,
        show -(parStep (q ^ 2) ((a ^ 3 + 3 * q ^ 2 * a) / 6))^[42 + m] s - -a
          = -((parStep (q ^ 2) ((a ^ 3 + 3 * q ^ 2 * a) / 6))^[42 + m] s - a) by ring, abs_neg, abs_neg] at this
      exact this
  set x := (parStep (q ^ 2) ((a ^ 3 + 3 * q ^ 2 * a) / 6))^[42 + m] s
  obtain ⟨h1, h2⟩ := key
  have h : (x ^ 3 + 3 * q ^ 2 * x) / 6 - (a ^ 3 + 3 * q ^ 2 * a) / 6
      = (x - a) * ((x ^ 2 + x * a + a ^ 2) / 6 + q ^ 2 / 2) := by ring
  have hx2 : x ^ 2 ≤ (20000 * q) ^ 2 := by rw [← sq_abs]; exact pow_le_pow_left₀ (abs_nonneg x) h2 2
  have ha2 : a ^ 2 ≤ (20 * q) ^ 2 := by rw [← sq_abs]; exact pow_le_pow_left₀ (abs_nonneg a) ha 2
  have h0 : 0 ≤ (x ^ 2 + x * a + a ^ 2) / 6 + q ^ 2 / 2 := by nlinarith [sq_nonneg (x + a), sq_nonneg q]
  have h3 : (x ^ 2 + x * a + a ^ 2) / 6 + q ^ 2 / 2 ≤ 5 * 10 ^ 8 * q ^ 2 := by nlinarith [sq_nonneg (x - a), sq_nonneg q]
  rw [h, abs_mul, abs_of_nonneg h0]
  calc _ ≤ (1 / 2) ^ 2 ^ m * (2 * q) * (5 * 10 ^ 8 * q ^ 2) := mul_le_mul h1 h3 h0 (by positivity)
    _ = _ := by ring

theorem small_pow {m : ℕ} (hm : 11 ≤ m) : (10 ^ 13 * (1 / 2) ^ 2 ^ m : ℝ) ≤ (1 / 10) ^ 306 := by
  have h8 : (1 / 2 : ℝ) ^ 4 ≤ 1 / 10 := by norm_num
  have h9 : (1 / 2 : ℝ) ^ 2 ^ m ≤ (1 / 2) ^ (4 * (306 + 13)) := by
    refine pow_le_pow_of_le_one (by norm_num) (by norm_num) ?_
    calc 4 * (306 + 13) ≤ 2 ^ 11 := by norm_num
      _ ≤ 2 ^ m := Nat.pow_le_pow_right (by norm_num) hm
  have h10 : (1 / 2 : ℝ) ^ (4 * (306 + 13)) ≤ (1 / 10) ^ (306 + 13) := by
    rw [pow_mul]; exact pow_le_pow_left₀ (by positivity) h8 _
  calc (10 ^ 13 * (1 / 2) ^ 2 ^ m : ℝ) ≤ 10 ^ 13 * (1 / 10) ^ (306 + 13) :=
        mul_le_mul_of_nonneg_left (h9.trans h10) (by positivity)
    _ = (1 / 10) ^ 306 * ((1 / 10) ^ 13 * 10 ^ 13) := by rw [pow_add]; ring
    _ = (1 / 10) ^ 306 := by rw [← mul_pow]; norm_num

/-- C59, the part that holds, outbound: on a parabola with `r·v ≥ 0` and forward in time, the default call meets
its tolerance as long as `D0 + √mu t/r0` is at most a million `√p`. -/
theorem C59_outbound_default_partial (hmu : 0 < mu) (hh : angular_momentum r v ≠ ⟨0, 0, 0⟩)
    (hpar : V3.norm v ^ 2 / 2 - mu / V3.norm r = 0) (hout : 0 ≤ sigma_fn r v mu)
    (hsize : Real.sqrt (pOf r v mu) ^ 3 ≤ 10 ^ 300) {t : ℝ} (ht : 0 ≤ t)
    (hB : sigma_fn r v mu + Real.sqrt mu * t / V3.norm r ≤ 10 ^ 6 * Real.sqrt (pOf r v mu))
    (max_iter : ℕ := 50) (hn : 47 ≤ max_iter) :
    ∃ χ, solve_kepler_uni t (alphaOf r v mu) (V3.norm r) (sigma_fn r v mu) mu defaultTol max_iter = some χ ∧
      |kepler_equ_uni χ (alphaOf r v mu) (V3.norm r) (sigma_fn r v mu) t mu| ≤ 1 / 1000000 := by
  have htol : (defaultTol : ℝ) = 1 / 1000000 := by norm_num [defaultTol]
  rw [alphaOf_par hmu hh hpar]
  obtain ⟨k, hk, -, hs, -, hstop⟩ := C13_uni t 0 (V3.norm r) (sigma_fn r v mu) mu defaultTol max_iter
  refine ⟨_, hs, ?_⟩
  rcases hk.lt_or_eq with h | h
  · have := hstop h
    simp only [lt_real, abs_real, decide_eq_false_iff_not, not_lt, htol] at this
    exact this
  · rw [C59_parabolic_newton hmu hh hpar, C53_parabolic_equation hmu hh hpar]
    have hroot := par_root hmu hh hpar t
    have hr0 := norm_par hmu hh hpar
    have hp := pOf_pos hh hmu
    have hq : 0 < Real.sqrt (pOf r v mu) := Real.sqrt_pos.2 hp
    have hqq : pOf r v mu = Real.sqrt (pOf r v mu) ^ 2 := (Real.sq_sqrt hp.le).symm
    set a := sigma_fn (exactProp r v mu t).1 (exactProp r v mu t).2 mu
    set q := Real.sqrt (pOf r v mu)
    set s := sigma_fn r v mu
    have hT : 0 ≤ Real.sqrt mu * t := mul_nonneg (Real.sqrt_nonneg _) ht
    have hBdef : parB r v mu t = (s ^ 3 + 3 * q ^ 2 * s) / 6 + Real.sqrt mu * t := by rw [parB, ← hqq]
    rw [hqq] at hroot hr0 ⊢
    have has : s ≤ a := by
      by_contra hlt
      push Not at hlt
      have h3 : a ^ 3 ≤ s ^ 3 := by
        nlinarith [sq_nonneg (s + a), sq_nonneg s, sq_nonneg a, mul_nonneg (sub_nonneg.2 hlt.le) (sq_nonneg (s + a)),
          mul_nonneg (sub_nonneg.2 hlt.le) (sq_nonneg s), mul_nonneg (sub_nonneg.2 hlt.le) (sq_nonneg a)]
      nlinarith [sq_pos_of_pos hq]
    have ha : 0 ≤ a := hout.trans has
    rw [hroot]
    obtain ⟨m, rfl⟩ : ∃ m, k = (35 + m) + 1 := ⟨k - 36, by omega⟩
    rw [Function.iterate_succ_apply]
    set y := parStep (q ^ 2) ((a ^ 3 + 3 * q ^ 2 * a) / 6) s with hy
    have hya : a ≤ y := by
      have := parStep_sub (a := a) hq s
      have h0 : 0 ≤ (s - a) ^ 2 * (2 * s + a) / (3 * (s ^ 2 + q ^ 2)) :=
        div_nonneg (mul_nonneg (sq_nonneg _) (by linarith)) (by positivity)
      linarith
    have hyB : y ≤ 10 ^ 6 * q := by
      refine le_trans (le_of_eq ?_) hB
      rw [hy, ← hroot, hBdef, parStep, hr0]
      ring
    obtain ⟨h1, h2, h3⟩ := par_run hq ha hya (D := 10 ^ 6 * q) (n := 35) (by linarith) (by
      have : ((2 : ℝ) / 3) ^ 35 * 10 ^ 6 ≤ 1 := by norm_num
      nlinarith) m
    set x := (parStep (q ^ 2) ((a ^ 3 + 3 * q ^ 2 * a) / 6))^[35 + m] y
    obtain ⟨r0, r1⟩ := par_resid hq ha h1
    have hE : (x ^ 3 + 3 * q ^ 2 * x) / 6 - (s ^ 3 + 3 * q ^ 2 * s) / 6 - Real.sqrt mu * t
        = (x ^ 3 + 3 * q ^ 2 * x) / 6 - (a ^ 3 + 3 * q ^ 2 * a) / 6 := by linarith
    rw [hE, abs_of_nonneg r0]
    have hx2 : (x ^ 2 + q ^ 2) / 2 ≤ 10 ^ 12 * q ^ 2 := by
      have : x ^ 2 ≤ (10 ^ 6 * q) ^ 2 := pow_le_pow_left₀ (ha.trans h1) (h3.trans hyB) 2
      nlinarith
    have hw : 0 ≤ (1 / 2 : ℝ) ^ 2 ^ m := by positivity
    have hsm := small_pow (m := m) (by omega)
    calc _ ≤ (x - a) * ((x ^ 2 + q ^ 2) / 2) := r1
      _ ≤ ((1 / 2) ^ 2 ^ m * (2 * q)) * (10 ^ 12 * q ^ 2) :=
          mul_le_mul h2 hx2 (by positivity) (by positivity)
      _ = q ^ 3 * (2 * 10 ^ 12 * (1 / 2) ^ 2 ^ m) := by ring
      _ ≤ q ^ 3 * (10 ^ 13 * (1 / 2) ^ 2 ^ m) := by
          refine mul_le_mul_of_nonneg_left (mul_le_mul_of_nonneg_right (by norm_num) hw) (by positivity)
      _ ≤ 10 ^ 300 * (1 / 10) ^ 306 := mul_le_mul hsize hsm (by positivity) (by positivity)
      _ = 1 / 1000000 := by
          rw [show (306 : ℕ) = 300 + 6 by norm_num, pow_add, ← mul_assoc, ← mul_pow]; norm_num

/-- C59, the part that holds, on the way in or out and in both directions of time: if `D = r·v/√mu` is at most
`50 √p` in size at the start and `20 √p` at the end (true anomalies up to 177 and 174 degrees either side of
periapsis), the default call meets its tolerance. -/
theorem C59_default_partial (hmu : 0 < mu) (hh : angular_momentum r v ≠ ⟨0, 0, 0⟩)
    (hpar : V3.norm v ^ 2 / 2 - mu / V3.norm r = 0)
    (hstart : |sigma_fn r v mu| ≤ 50 * Real.sqrt (pOf r v mu))
    (hsize : Real.sqrt (pOf r v mu) ^ 3 ≤ 10 ^ 60) {t : ℝ}
    (hend : |sigma_fn (exactProp r v mu t).1 (exactProp r v mu t).2 mu| ≤ 20 * Real.sqrt (pOf r v mu))
    (max_iter : ℕ := 50) (hn : 50 ≤ max_iter) :
    ∃ χ, solve_kepler_uni t (alphaOf r v mu) (V3.norm r) (sigma_fn r v mu) mu defaultTol max_iter = some χ ∧
      |kepler_equ_uni χ (alphaOf r v mu) (V3.norm r) (sigma_fn r v mu) t mu| ≤ 1 / 1000000 := by
  have htol : (defaultTol : ℝ) = 1 / 1000000 := by norm_num [defaultTol]
  rw [alphaOf_par hmu hh hpar]
  obtain ⟨k, hk, -, hs, -, hstop⟩ := C13_uni t 0 (V3.norm r) (sigma_fn r v mu) mu defaultTol max_iter
  refine ⟨_, hs, ?_⟩
  rcases hk.lt_or_eq with h | h
  · have := hstop h
    simp only [lt_real, abs_real, decide_eq_false_iff_not, not_lt, htol] at this
    exact this
  · rw [C59_parabolic_newton hmu hh hpar, C53_parabolic_equation hmu hh hpar]
    have hroot := par_root hmu hh hpar t
    have hp := pOf_pos hh hmu
    have hq : 0 < Real.sqrt (pOf r v mu) := Real.sqrt_pos.2 hp
    have hqq : pOf r v mu = Real.sqrt (pOf r v mu) ^ 2 := (Real.sq_sqrt hp.le).symm
    obtain ⟨m, rfl⟩ : ∃ m, k = 42 + m := ⟨k - 42, by omega⟩
    have hres := par_any_resid hq hend hstart m
    rw [← hqq, ← hroot] at hres
    have e : ∀ x B1 B2 : ℝ, x - B1 - B2 = x - (B1 + B2) := fun x B1 B2 => by ring
    rw [e, ← parB]
    refine hres.trans ?_
    have h9 : (1 / 2 : ℝ) ^ 2 ^ m ≤ (1 / 10) ^ 75 := by
      have h8 : (1 / 2 : ℝ) ^ 2 ^ m ≤ (1 / 2) ^ 2 ^ 8 :=
        pow_le_pow_of_le_one (by norm_num) (by norm_num) (Nat.pow_le_pow_right (by norm_num) (by omega))
      exact h8.trans (by norm_num)
    calc Real.sqrt (pOf r v mu) ^ 3 * (10 ^ 9 * (1 / 2) ^ 2 ^ m) ≤ 10 ^ 60 * (10 ^ 9 * (1 / 10) ^ 75) :=
          mul_le_mul hsize (mul_le_mul_of_nonneg_left h9 (by positivity)) (by positivity) (by positivity)
      _ ≤ 1 / 1000000 := by norm_num

/-- C59, `kepler` on these ranges: the returned state is exact at a time within the tolerance. -/
theorem C59_kepler_partial (hmu : 0 < mu) (hh : angular_momentum r v ≠ ⟨0, 0, 0⟩)
    (hpar : V3.norm v ^ 2 / 2 - mu / V3.norm r = 0) (hsize : Real.sqrt (pOf r v mu) ^ 3 ≤ 10 ^ 60)
    {ts : List ℝ}
    (hts : ∀ t ∈ ts,
      (0 ≤ sigma_fn r v mu ∧ 0 ≤ t ∧
        sigma_fn r v mu + Real.sqrt mu * t / V3.norm r ≤ 10 ^ 6 * Real.sqrt (pOf r v mu)) ∨
      (|sigma_fn r v mu| ≤ 50 * Real.sqrt (pOf r v mu) ∧
        |sigma_fn (exactProp r v mu t).1 (exactProp r v mu t).2 mu| ≤ 20 * Real.sqrt (pOf r v mu)))
    {rs vs : List (V3 ℝ)} (hk : kepler ts r v mu = some (rs, vs)) {i : ℕ} {r' v' : V3 ℝ}
    (hr' : rs[i]? = some r') (hv' : vs[i]? = some v') :
    ∃ t t', ts[i]? = some t ∧ |t' - t| ≤ 1 / 1000000 / Real.sqrt mu ∧ (r', v') = exactProp r v mu t' := by
  obtain ⟨t, χ, t', h1, h2, h3, h4, -⟩ := C23_exact_up_to_time hmu hh hk hr' hv'
  have hbig : (10 : ℝ) ^ 60 ≤ 10 ^ 300 := pow_le_pow_right₀ (by norm_num) (by norm_num)
  obtain ⟨χ', h5, h6⟩ : ∃ χ, solve_kepler_uni t (alphaOf r v mu) (V3.norm r) (sigma_fn r v mu) mu defaultTol 50 = some χ ∧
      |kepler_equ_uni χ (alphaOf r v mu) (V3.norm r) (sigma_fn r v mu) t mu| ≤ 1 / 1000000 := by
    rcases hts t (List.mem_of_getElem? h1) with ⟨c1, c2, c3⟩ | ⟨c1, c2⟩
    · exact C59_outbound_default_partial hmu hh hpar c1 (hsize.trans hbig) c2 c3 50 (by norm_num)
    · exact C59_default_partial hmu hh hpar c1 hsize c2 50 le_rfl
  obtain rfl : χ' = χ := Option.some.inj (h5.symm.trans h2)
  refine ⟨t, t', h1, ?_, h4⟩
  rw [h3, add_sub_cancel_left, abs_div, abs_of_pos (Real.sqrt_pos.2 hmu)]
  exact div_le_div_of_nonneg_right h6 (Real.sqrt_nonneg _)

/-! ### far out -/

theorem par_slow {q B x : ℝ} (hq : 0 < q) (hB : 0 ≤ B) (hx : 100 * q ≤ x) : 0.666 * x ≤ parStep (q ^ 2) B x := by
  have hx0 : 0 < x := by linarith [mul_pos (by norm_num : (0 : ℝ) < 100) hq]
  have hpos : 0 < (x ^ 2 + q ^ 2) / 2 := by positivity
  have : ((x ^ 3 + 3 * q ^ 2 * x) / 6 - B) / ((x ^ 2 + q ^ 2) / 2) ≤ 0.334 * x := by
    rw [div_le_iff₀ hpos]
    have hqx : q ^ 2 * 10000 ≤ x ^ 2 := by nlinarith
    nlinarith
  rw [parStep]; linarith

/-- C59 is false without a bound: from the periapsis of *any* parabola, for times of flight beyond
`10^14 p^{3/2}/√mu` the fifty Newton steps do not suffice and `kepler` silently returns the state of more than a
hundred times the requested time. -/
theorem C59_periapsis_refuted (hmu : 0 < mu) (hh : angular_momentum r v ≠ ⟨0, 0, 0⟩)
    (hpar : V3.norm v ^ 2 / 2 - mu / V3.norm r = 0) (hσ : sigma_fn r v mu = 0) {t : ℝ}
    (ht : 10 ^ 14 * Real.sqrt (pOf r v mu) ^ 3 ≤ Real.sqrt mu * t) (htol : 1 / 1000000 < Real.sqrt mu * t) :
    ∃ r' v' t', kepler [t] r v mu = some ([r'], [v']) ∧ (r', v') = exactProp r v mu t' ∧ 100 * t ≤ t' := by
  obtain ⟨⟨rs, vs⟩, hk⟩ : ∃ p, kepler [t] r v mu = some p := ⟨_, kepler_eq_map ..⟩
  have hlen : rs.length = 1 ∧ vs.length = 1 := by
    rw [kepler_eq_map] at hk
    obtain ⟨rfl, rfl⟩ := Prod.mk.inj (Option.some.inj hk)
    simp
  obtain ⟨r', rfl⟩ := List.length_eq_one_iff.1 hlen.1
  obtain ⟨v', rfl⟩ := List.length_eq_one_iff.1 hlen.2
  obtain ⟨t1, χ, t', h1, h2, h3, h4, -⟩ := C23_exact_up_to_time (r := r) (v := v) hmu hh hk
    (i := 0) (r' := r') (v' := v') rfl rfl
  obtain rfl : t = t1 := by simpa using h1
  refine ⟨r', v', t', hk, h4, ?_⟩
  rw [alphaOf_par hmu hh hpar] at h2 h3
  obtain ⟨k, hk', -, hs, -, hstop⟩ := C13_uni t 0 (V3.norm r) (sigma_fn r v mu) mu defaultTol 50
  have h6 := Option.some.inj (hs.symm.trans h2)
  have hsq : 0 < Real.sqrt mu := Real.sqrt_pos.2 hmu
  have hp := pOf_pos hh hmu
  have hq : 0 < Real.sqrt (pOf r v mu) := Real.sqrt_pos.2 hp
  have hqq : pOf r v mu = Real.sqrt (pOf r v mu) ^ 2 := (Real.sq_sqrt hp.le).symm
  have hB : parB r v mu t = Real.sqrt mu * t := by rw [parB, hσ]; ring
  -- at least one step is made
  have hk0 : k ≠ 0 := by
    rintro rfl
    have := hstop (by norm_num)
    rw [C59_parabolic_newton hmu hh hpar, C53_parabolic_equation hmu hh hpar, hσ] at this
    simp only [lt_real, abs_real, decide_eq_false_iff_not, not_lt, Function.iterate_zero, id_eq, defaultTol,
      Nat.cast_one, Nat.cast_ofNat] at this
    rw [show ((0 : ℝ) ^ 3 + 3 * pOf r v mu * 0) / 6 - (0 ^ 3 + 3 * pOf r v mu * 0) / 6 - Real.sqrt mu * t
      = -(Real.sqrt mu * t) by ring, abs_neg, abs_of_pos (by linarith)] at this
    norm_num at this htol
    linarith
  obtain ⟨j, rfl⟩ := Nat.exists_eq_succ_of_ne_zero hk0
  rw [← h6, C59_parabolic_newton hmu hh hpar, C53_parabolic_equation hmu hh hpar, hB, hσ,
    Function.iterate_succ_apply, hqq] at h3
  set q := Real.sqrt (pOf r v mu)
  set T := Real.sqrt mu * t
  have hT0 : 0 < T := lt_of_lt_of_le (by positivity) ht
  have hy : parStep (q ^ 2) T 0 = 2 * T / q ^ 2 := by rw [parStep]; field_simp; ring
  rw [hy] at h3
  have hT2 : 10 ^ 14 * q ≤ T / q ^ 2 := by
    rw [le_div_iff₀ (by positivity)]
    calc 10 ^ 14 * q * q ^ 2 = 10 ^ 14 * q ^ 3 := by ring
      _ ≤ T := ht
  have hit : ∀ i, i ≤ 49 → 0.666 ^ i * (2 * T / q ^ 2) ≤ (parStep (q ^ 2) T)^[i] (2 * T / q ^ 2) := by
    intro i
    induction i with
    | zero => simp
    | succ i ih =>
      intro hi
      have h7 := ih (by omega)
      rw [Function.iterate_succ_apply']
      have h8 : (0.666 : ℝ) ^ 49 ≤ 0.666 ^ i := pow_le_pow_of_le_one (by norm_num) (by norm_num) (by omega)
      have h9 : (2 : ℝ) / 10 ^ 9 ≤ 0.666 ^ 49 := by norm_num
      have h10 : 100 * q ≤ (parStep (q ^ 2) T)^[i] (2 * T / q ^ 2) := by
        refine le_trans ?_ h7
        calc 100 * q ≤ 2 / 10 ^ 9 * (2 * (10 ^ 14 * q)) := by nlinarith
          _ ≤ 0.666 ^ i * (2 * (T / q ^ 2)) := mul_le_mul (h9.trans h8) (by linarith) (by positivity) (by positivity)
          _ = _ := by ring
      refine le_trans (le_of_eq ?_) ((mul_le_mul_of_nonneg_left h7 (by norm_num)).trans (par_slow hq hT0.le h10))
      rw [pow_succ']; ring
  have h7 := hit j (by omega)
  set x := (parStep (q ^ 2) T)^[j] (2 * T / q ^ 2)
  have h8 : (2 : ℝ) / 10 ^ 9 ≤ 0.666 ^ j :=
    le_trans (by norm_num : (2 : ℝ) / 10 ^ 9 ≤ 0.666 ^ 49) (pow_le_pow_of_le_one (by norm_num) (by norm_num) (by omega))
  have h9 : 4 / 10 ^ 9 * (T / q ^ 2) ≤ x := by
    refine le_trans ?_ h7
    calc 4 / 10 ^ 9 * (T / q ^ 2) = 2 / 10 ^ 9 * (2 * T / q ^ 2) := by ring
      _ ≤ _ := mul_le_mul_of_nonneg_right h8 (by positivity)
  -- the residual
  have h10 : 100 * T ≤ x ^ 3 / 6 := by
    have h11 : (4 / 10 ^ 9 * (T / q ^ 2)) ^ 3 ≤ x ^ 3 := pow_le_pow_left₀ (by positivity) h9 3
    have h12 : 600 * T ≤ (4 / 10 ^ 9 * (T / q ^ 2)) ^ 3 := by
      have e : (4 / 10 ^ 9 * (T / q ^ 2)) ^ 3 = (4 / 10 ^ 9) ^ 3 * (T / q ^ 3) ^ 2 * T := by field_simp
      have h13 : 10 ^ 14 ≤ T / q ^ 3 := by rw [le_div_iff₀ (by positivity)]; exact ht
      have h14 : (10 ^ 14) ^ 2 ≤ (T / q ^ 3) ^ 2 := pow_le_pow_left₀ (by positivity) h13 2
      rw [e]
      refine mul_le_mul_of_nonneg_right ?_ hT0.le
      calc (600 : ℝ) ≤ (4 / 10 ^ 9) ^ 3 * (10 ^ 14) ^ 2 := by norm_num
        _ ≤ _ := mul_le_mul_of_nonneg_left h14 (by positivity)
    linarith
  have hx0 : 0 ≤ x := le_trans (by positivity) h9
  have h15 : 100 * T ≤ (t' ) * Real.sqrt mu := by
    have h16 : t' * Real.sqrt mu = (x ^ 3 + 3 * q ^ 2 * x) / 6 := by
      rw [h3, add_mul, div_mul_cancel₀ _ hsq.ne']
      show t * Real.sqrt mu + _ = _
      have : T = t * Real.sqrt mu := mul_comm _ _
      rw [← this]; ring
    rw [h16]
    have : 0 ≤ 3 * q ^ 2 * x := by positivity
    linarith
  have h17 : 100 * t * Real.sqrt mu ≤ t' * Real.sqrt mu := by
    have : 100 * T = 100 * t * Real.sqrt mu := by show 100 * (Real.sqrt mu * t) = _; ring
    linarith
  exact le_of_mul_le_mul_right h17 hsq

/-! ### a concrete parabola -/

theorem par_state : angular_momentum (⟨1, 0, 0⟩ : V3 ℝ) ⟨0, 1, 0⟩ ≠ ⟨0, 0, 0⟩ ∧
    V3.norm (⟨0, 1, 0⟩ : V3 ℝ) ^ 2 / 2 - 1 / 2 / V3.norm (⟨1, 0, 0⟩ : V3 ℝ) = 0 ∧
    sigma_fn (⟨1, 0, 0⟩ : V3 ℝ) ⟨0, 1, 0⟩ (1 / 2) = 0 ∧ pOf (⟨1, 0, 0⟩ : V3 ℝ) ⟨0, 1, 0⟩ (1 / 2) = 2 ∧
    V3.norm (⟨1, 0, 0⟩ : V3 ℝ) = 1 := by
  have hn : V3.norm (⟨1, 0, 0⟩ : V3 ℝ) = 1 := by rw [norm_unfold]; simp
  have hv : V3.norm (⟨0, 1, 0⟩ : V3 ℝ) = 1 := by rw [norm_unfold]; simp
  have hh : angular_momentum (⟨1, 0, 0⟩ : V3 ℝ) ⟨0, 1, 0⟩ = ⟨0, 0, 1⟩ := by
    simp [angular_momentum, V3.cross]
  have hz : V3.norm (⟨0, 0, 1⟩ : V3 ℝ) = 1 := by rw [norm_unfold]; simp
  refine ⟨?_, by rw [hn, hv]; norm_num, ?_, ?_, hn⟩
  · rw [hh]; intro h; exact one_ne_zero (congrArg V3.z h)
  · simp [sigma_fn, V3.dot]
  · rw [pOf, hh, hz, semiparameter]; norm_num

/-- From the periapsis of the parabola `r = (1,0,0)`, `v = (0,1,0)`, `mu = 1/2`: every time of flight up to a
million is met, the time `10^15` is not. -/
theorem C59_example :
    (∀ t : ℝ, 0 ≤ t → t ≤ 10 ^ 6 →
      ∃ r' v' t', kepler [t] (⟨1, 0, 0⟩ : V3 ℝ) ⟨0, 1, 0⟩ (1 / 2) = some ([r'], [v']) ∧
        |t' - t| ≤ 1 / 1000000 / Real.sqrt (1 / 2) ∧ (r', v') = exactProp ⟨1, 0, 0⟩ ⟨0, 1, 0⟩ (1 / 2) t') ∧
    ∃ r' v' t', kepler [10 ^ 15] (⟨1, 0, 0⟩ : V3 ℝ) ⟨0, 1, 0⟩ (1 / 2) = some ([r'], [v']) ∧
      (r', v') = exactProp ⟨1, 0, 0⟩ ⟨0, 1, 0⟩ (1 / 2) t' ∧ 10 ^ 17 ≤ t' := by
  obtain ⟨hh, hpar, hσ, hp, hn⟩ := par_state
  have hmu : (0 : ℝ) < 1 / 2 := by norm_num
  have hs2 : Real.sqrt 2 ^ 2 = 2 := Real.sq_sqrt (by norm_num)
  have h2 : Real.sqrt 2 ≤ 2 := by rw [Real.sqrt_le_left (by norm_num)]; norm_num
  have h1 : 1 ≤ Real.sqrt 2 := by rw [Real.le_sqrt (by norm_num) (by norm_num)]; norm_num
  have hh2 : Real.sqrt (1 / 2) = Real.sqrt 2 / 2 := by
    rw [Real.sqrt_div (by norm_num), Real.sqrt_one]
    have : Real.sqrt 2 ≠ 0 := by positivity
    field_simp
    linarith
  constructor
  · intro t ht0 ht
    obtain ⟨⟨rs, vs⟩, hk⟩ : ∃ p, kepler [t] (⟨1, 0, 0⟩ : V3 ℝ) ⟨0, 1, 0⟩ (1 / 2) = some p := ⟨_, kepler_eq_map ..⟩
    have hlen : rs.length = 1 ∧ vs.length = 1 := by
      have hk' := hk
      rw [kepler_eq_map] at hk'
      obtain ⟨rfl, rfl⟩ := Prod.mk.inj (Option.some.inj hk')
      simp
    obtain ⟨r', rfl⟩ := List.length_eq_one_iff.1 hlen.1
    obtain ⟨v', rfl⟩ := List.length_eq_one_iff.1 hlen.2
    obtain ⟨t1, t', e1, e2, e3⟩ := C59_kepler_partial hmu hh hpar
      (by
        rw [hp]
        calc Real.sqrt 2 ^ 3 ≤ 2 ^ 3 := pow_le_pow_left₀ (by positivity) h2 3
          _ ≤ 10 ^ 60 := by norm_num)
      (ts := [t]) (fun t' ht' => by
        obtain rfl : t' = t := by simpa using ht'
        left
        refine ⟨hσ.ge, ht0, ?_⟩
        rw [hσ, hn, hp, hh2, zero_add, div_one]
        nlinarith) hk (i := 0) (r' := r') (v' := v') rfl rfl
    obtain rfl : t = t1 := by simpa using e1
    exact ⟨r', v', t', hk, e2, e3⟩
  · obtain ⟨r', v', t', e1, e2, e3⟩ := C59_periapsis_refuted hmu hh hpar hσ (t := 10 ^ 15)
      (by
        rw [hp, hh2, show Real.sqrt 2 ^ 3 = 2 * Real.sqrt 2 by rw [pow_succ, hs2]]
        linarith)
      (by rw [hh2]; linarith)
    exact ⟨r', v', t', e1, e2, by linarith⟩

end Adx
