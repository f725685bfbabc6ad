import Verif.Props.C59

/-! # C59: wider ranges on parabolas

The error of a step right of the root `a` is at most the square of the previous one over `max a √p`, and two
thirds of it; left of the root a step overshoots to at most `a + a³/(3p)`. -/

namespace Adx
open Set Spec

section
variable {q a : ℝ} (hq : 0 < q)
include hq

theorem par_quad_max {x : ℝ} (ha : 0 ≤ a) (hx : a ≤ x) :
    parStep (q ^ 2) ((a ^ 3 + 3 * q ^ 2 * a) / 6) x - a ≤ 1 / max a q * (x - a) ^ 2 := by
  have hb : 0 < max a q := lt_max_of_lt_right hq
  have hpos : 0 < 3 * (x ^ 2 + q ^ 2) := by positivity
  have hx0 : 0 ≤ x := ha.trans hx
  rw [parStep_sub hq, div_mul_eq_mul_div, one_mul, div_le_div_iff₀ hpos hb, mul_assoc]
  refine mul_le_mul_of_nonneg_left ?_ (sq_nonneg _)
  rcases max_choice a q with h | h <;> rw [h]
  · nlinarith [sq_nonneg q, mul_nonneg ha (sub_nonneg.2 hx)]
  · nlinarith [sq_nonneg (x - q), mul_nonneg hq.le hx0, mul_nonneg hq.le (sub_nonneg.2 hx)]

/-- Right of a non-negative root, `n` linear steps and `m` quadratic ones. -/
theorem par_run_max {y K : ℝ} (ha : 0 ≤ a) (hy : a ≤ y) (hK : y - a ≤ K * max a q) {n : ℕ}
    (hn : (2 / 3) ^ n * K ≤ 1 / 2) (m : ℕ) :
    |(parStep (q ^ 2) ((a ^ 3 + 3 * q ^ 2 * a) / 6))^[n + m] y - a| ≤ (1 / 2) ^ 2 ^ m * max a q := by
  have hb : 0 < max a q := lt_max_of_lt_right hq
  set g := parStep (q ^ 2) ((a ^ 3 + 3 * q ^ 2 * a) / 6) with hg
  have hin : ∀ k, a ≤ g^[k] y := by
    intro k
    induction k with
    | zero => exact hy
    | succ k ih =>
      rw [Function.iterate_succ_apply']
      linarith [(par_right hq ha ih).1]
  have := decay (δ := fun k => g^[k] y - a) (ρ := 2 / 3) (c := 1 / max a q) (D := K * max a q) (n := n) (by norm_num)
    (by positivity) (fun k => sub_nonneg.2 (hin k)) hK
    (fun k => by
      show g^[k + 1] y - a ≤ _
      rw [Function.iterate_succ_apply']; exact (par_right hq ha (hin k)).2.1)
    (fun k => by
      show g^[k + 1] y - a ≤ _
      rw [Function.iterate_succ_apply']; exact par_quad_max hq ha (hin k))
    (by rw [mul_one_div, ← mul_assoc, mul_div_cancel_right₀ _ hb.ne']; exact hn) m
  rw [abs_of_nonneg (sub_nonneg.2 (hin _))]
  rwa [div_div_eq_mul_div, div_one] at this

theorem pow_mono_max {m m' : ℕ} (h : m ≤ m') : (1 / 2 : ℝ) ^ 2 ^ m' * max a q ≤ (1 / 2) ^ 2 ^ m * max a q :=
  mul_le_mul_of_nonneg_right (pow_le_pow_of_le_one (by norm_num) (by norm_num)
    (Nat.pow_le_pow_right (by norm_num) h)) (lt_max_of_lt_right hq).le

/-- From further out, back to a root on the same side. -/
theorem par_back {s : ℝ} (ha : 0 ≤ a) (hs : a ≤ s) (hs' : s ≤ 3 * 10 ^ 6 * max a q) (m : ℕ) :
    |(parStep (q ^ 2) ((a ^ 3 + 3 * q ^ 2 * a) / 6))^[42 + m] s - a| ≤ (1 / 2) ^ 2 ^ m * max a q :=
  par_run_max hq ha hs (K := 3 * 10 ^ 6) (by linarith) (by norm_num) m

/-- From nearer to a root further out on the same side. -/
theorem par_out {s : ℝ} (hs : 0 ≤ s) (hsa : s ≤ a)
    (hy : parStep (q ^ 2) ((a ^ 3 + 3 * q ^ 2 * a) / 6) s ≤ 10 ^ 10 * q) (m : ℕ) :
    |(parStep (q ^ 2) ((a ^ 3 + 3 * q ^ 2 * a) / 6))^[42 + m] s - a| ≤ (1 / 2) ^ 2 ^ m * max a q := by
  have ha : 0 ≤ a := hs.trans hsa
  have hb : 0 < max a q := lt_max_of_lt_right hq
  have hya : a ≤ parStep (q ^ 2) ((a ^ 3 + 3 * q ^ 2 * a) / 6) s := by
    have := parStep_sub (a := a) hq s
    have h0 : 0 ≤ (s - a) ^ 2 * (2 * s + a) / (3 * (s ^ 2 + q ^ 2)) :=
      div_nonneg (mul_nonneg (sq_nonneg _) (by linarith)) (by positivity)
    linarith
  have hB : q ^ 2 * parStep (q ^ 2) ((a ^ 3 + 3 * q ^ 2 * a) / 6) s / 2 ≤ (a ^ 3 + 3 * q ^ 2 * a) / 6 := by
    have hne : s ^ 2 + q ^ 2 ≠ 0 := by positivity
    have e : parStep (q ^ 2) ((a ^ 3 + 3 * q ^ 2 * a) / 6) s
        = (2 * s ^ 3 + (a ^ 3 + 3 * q ^ 2 * a)) / (3 * (s ^ 2 + q ^ 2)) := by
      rw [parStep]; field_simp; ring
    rw [e, mul_div_assoc', div_div, div_le_div_iff₀ (by positivity) (by norm_num)]
    have h3 : s ^ 3 ≤ a ^ 3 := pow_le_pow_left₀ hs hsa 3
    have h4 : 2 * q ^ 2 * s ^ 3 ≤ s ^ 2 * (a ^ 3 + 3 * q ^ 2 * a) := by
      have : s ^ 2 * (2 * q ^ 2 * s) ≤ s ^ 2 * (a ^ 3 + 3 * q ^ 2 * a) := by
        refine mul_le_mul_of_nonneg_left ?_ (sq_nonneg _)
        have h5 : q ^ 2 * s ≤ q ^ 2 * a := mul_le_mul_of_nonneg_left hsa (sq_nonneg _)
        have h6 : 0 ≤ q ^ 2 * a := by positivity
        have h7 : 0 ≤ a ^ 3 := by positivity
        linarith
      linarith
    nlinarith
  set y := parStep (q ^ 2) ((a ^ 3 + 3 * q ^ 2 * a) / 6) s with hydef
  have hy0 : 0 ≤ y := ha.trans hya
  have hyb : y ≤ 36 * 10 ^ 5 * max a q := by
    by_contra hlt
    push Not at hlt
    have h1 : a ≤ y / (36 * 10 ^ 5) := by
      rw [le_div_iff₀ (by norm_num)]; nlinarith [le_max_left a q]
    have hypos : 0 < y := lt_of_le_of_lt (by positivity) hlt
    have h2 : a ^ 3 ≤ (y / (36 * 10 ^ 5)) ^ 3 := pow_le_pow_left₀ ha h1 3
    have h3 : (y / (36 * 10 ^ 5)) ^ 3 ≤ 2.2 * (q ^ 2 * y) := by
      have h4 : y ^ 2 ≤ (10 ^ 10 * q) ^ 2 := pow_le_pow_left₀ hy0 hy 2
      have e : (y / (36 * 10 ^ 5)) ^ 3 = y ^ 2 * (y / (36 * 10 ^ 5) ^ 3) := by field_simp
      rw [e]
      calc y ^ 2 * (y / (36 * 10 ^ 5) ^ 3) ≤ (10 ^ 10 * q) ^ 2 * (y / (36 * 10 ^ 5) ^ 3) :=
            mul_le_mul_of_nonneg_right h4 (by positivity)
        _ = (10 ^ 20 / (36 * 10 ^ 5) ^ 3) * (q ^ 2 * y) := by ring
        _ ≤ 2.2 * (q ^ 2 * y) := mul_le_mul_of_nonneg_right (by norm_num) (by positivity)
    have h5 : q ^ 2 * a ≤ q ^ 2 * (y / (36 * 10 ^ 5)) := mul_le_mul_of_nonneg_left h1 (sq_nonneg _)
    have h6 : q ^ 2 * (y / (36 * 10 ^ 5)) = q ^ 2 * y / (36 * 10 ^ 5) := by ring
    have h7 : 0 < q ^ 2 * y := by positivity
    rw [h6] at h5
    have h8 : q ^ 2 * y / (36 * 10 ^ 5) ≤ q ^ 2 * y / 10 := div_le_div_of_nonneg_left h7.le (by norm_num) (by norm_num)
    linarith
  have := par_run_max hq ha hya (K := 36 * 10 ^ 5) (n := 39) (by linarith) (by norm_num) (m + 2)
  rw [hydef, ← Function.iterate_succ_apply, show (39 + (m + 2)).succ = 42 + m by omega] at this
  exact this.trans (pow_mono_max hq (by omega))

/-- From any side, towards a root at most `25 √p` out. -/
theorem par_wide {s : ℝ} (ha : 0 ≤ a) (ha' : a ≤ 25 * q) (hs : |s| ≤ 1000 * max a q) (m : ℕ) :
    |(parStep (q ^ 2) ((a ^ 3 + 3 * q ^ 2 * a) / 6))^[42 + m] s - a| ≤ (1 / 2) ^ 2 ^ m * max a q := by
  have hb : 0 < max a q := lt_max_of_lt_right hq
  rcases le_total a s with has | hsa
  · exact par_back hq ha has (by nlinarith [le_abs_self s]) m
  set g := parStep (q ^ 2) ((a ^ 3 + 3 * q ^ 2 * a) / 6) with hg
  obtain ⟨hs1, hs2⟩ := abs_le.1 hs
  rcases le_total a (q / 2) with hc | hc
  · have hbq : max a q = q := max_eq_right (by linarith)
    rw [hbq] at hs1 hs2 ⊢
    have hd := decay (δ := fun k => |g^[k] s - a|) (ρ := 3 / 4) (c := 1 / (2 * q)) (D := 1001 * q) (n := 25)
      (by norm_num) (by positivity) (fun k => abs_nonneg _)
      (by simp only [Function.iterate_zero, id_eq]; rw [abs_le]; constructor <;> linarith)
      (fun k => by
        show |g^[k + 1] s - a| ≤ _
        rw [Function.iterate_succ_apply']; exact (par_small hq ha hc).1)
      (fun k => by
        show |g^[k + 1] s - a| ≤ _
        rw [Function.iterate_succ_apply']; exact (par_small hq ha hc).2)
      (by
        rw [mul_one_div, div_le_div_iff₀ (by positivity) (by norm_num)]
        have : ((3 : ℝ) / 4) ^ 25 * 1001 ≤ 1 := by norm_num
        nlinarith) (17 + m)
    rw [div_div_eq_mul_div, div_one, ← add_assoc] at hd
    refine hd.trans ?_
    have hw : (1 / 2 : ℝ) ^ 2 ^ (17 + m) ≤ (1 / 2) ^ (2 ^ m + 1) := by
      refine pow_le_pow_of_le_one (by norm_num) (by norm_num) ?_
      have h1 : 1 ≤ 2 ^ m := Nat.one_le_two_pow
      rw [pow_add]
      have h2 : 2 ≤ 2 ^ 17 := by norm_num
      nlinarith
    calc _ ≤ (1 / 2 : ℝ) ^ (2 ^ m + 1) * (2 * q) := mul_le_mul_of_nonneg_right hw (by positivity)
      _ = _ := by rw [pow_succ]; ring
  · have ha0 : 0 < a := by linarith
    have hb2 : max a q ≤ 2 * a := max_le (by linarith) (by linarith)
    have hex : ∃ j, 0 < 2 * g^[j] s + a ∧ j ≤ 26 ∧ (∀ i < j, 2 * g^[i] s + a ≤ 0) := by
      by_contra hno
      push Not at hno
      have hle : ∀ j, j ≤ 26 → 2 * g^[j] s + a ≤ 0 := by
        intro j
        induction j using Nat.strong_induction_on with
        | _ j ih =>
          intro hj
          by_contra hpos
          push Not at hpos
          obtain ⟨i, hi, hi'⟩ := hno j hpos hj
          linarith [ih i hi (by omega)]
      have hdec : ∀ j, j ≤ 26 → |g^[j] s - a| ≤ (3 / 4) ^ j * (2001 * a) := by
        intro j
        induction j with
        | zero => intro _; simp only [Function.iterate_zero, id_eq, pow_zero, one_mul]; rw [abs_le]; constructor <;> linarith
        | succ j ih =>
          intro hj
          rw [Function.iterate_succ_apply']
          refine (par_lin_left hq ha (hle j (by omega))).trans ?_
          have := ih (by omega)
          rw [pow_succ']
          linarith
      have h1 := hdec 26 le_rfl
      have h2 := hle 26 le_rfl
      rw [abs_of_nonpos (by linarith)] at h1
      have : ((3 : ℝ) / 4) ^ 26 * 2001 ≤ 1.4 := by norm_num
      nlinarith
    obtain ⟨j, hj, hj26, hbefore⟩ := hex
    have hja : g^[j] s ≤ a := by
      rcases j with _ | j
      · exact hsa
      · have h1 := hbefore j (by omega)
        have h2 := parStep_sub (a := a) hq (g^[j] s)
        have h3 : (g^[j] s - a) ^ 2 * (2 * g^[j] s + a) / (3 * ((g^[j] s) ^ 2 + q ^ 2)) ≤ 0 :=
          div_nonpos_of_nonpos_of_nonneg (mul_nonpos_of_nonneg_of_nonpos (sq_nonneg _) h1) (by positivity)
        rw [Function.iterate_succ_apply']
        rw [← hg] at h2
        linarith
    have h2 := parStep_sub (a := a) hq (g^[j] s)
    rw [← hg] at h2
    have hya : a ≤ g (g^[j] s) := by
      have : 0 ≤ (g^[j] s - a) ^ 2 * (2 * g^[j] s + a) / (3 * ((g^[j] s) ^ 2 + q ^ 2)) :=
        div_nonneg (mul_nonneg (sq_nonneg _) hj.le) (by positivity)
      linarith
    have hyK : g (g^[j] s) - a ≤ 209 * max a q := by
      rw [h2, div_le_iff₀ (by positivity)]
      set x := g^[j] s
      have e1 : (x - a) ^ 2 * (2 * x + a) ≤ a ^ 3 := by
        have : a ^ 3 - (x - a) ^ 2 * (2 * x + a) = x ^ 2 * (3 * a - 2 * x) := by ring
        have h0 : 0 ≤ x ^ 2 * (3 * a - 2 * x) := mul_nonneg (sq_nonneg _) (by linarith)
        linarith
      have e2 : a ^ 2 ≤ 625 * q ^ 2 := by nlinarith
      calc (x - a) ^ 2 * (2 * x + a) ≤ a ^ 3 := e1
        _ = a * a ^ 2 := by ring
        _ ≤ a * (625 * q ^ 2) := mul_le_mul_of_nonneg_left e2 ha
        _ ≤ max a q * (625 * q ^ 2) := mul_le_mul_of_nonneg_right (le_max_left _ _) (by positivity)
        _ ≤ 209 * max a q * (3 * (x ^ 2 + q ^ 2)) := by
            have h5 : 0 ≤ max a q * x ^ 2 := by positivity
            have h6 : 0 ≤ max a q * q ^ 2 := by positivity
            linarith
    have := par_run_max hq ha hya hyK (n := 15) (by norm_num) (m + (26 - j))
    rw [← Function.iterate_succ_apply' g j s, ← Function.iterate_add_apply,
      show 15 + (m + (26 - j)) + j.succ = 42 + m by omega] at this
    exact this.trans (pow_mono_max hq (by omega))

end

/-- Start `s` and solution `a` of Barker's equation for which fifty steps suffice: both on the same side with the
first step at most `10^10 √p`; or back on the same side; or any start within a thousand times the larger of
`|a|` and `√p`, to a solution within `25 √p`. -/
def ParRange (q s a y : ℝ) : Prop :=
  ((0 ≤ s ∧ s ≤ a ∨ s ≤ 0 ∧ a ≤ s) ∧ |y| ≤ 10 ^ 10 * q) ∨
  ((0 ≤ a ∧ a ≤ s ∨ a ≤ 0 ∧ s ≤ a) ∧ |s| ≤ 3 * 10 ^ 6 * max |a| q) ∨
  (|a| ≤ 25 * q ∧ |s| ≤ 1000 * max |a| q)

theorem par_range_pos {q a s : ℝ} (hq : 0 < q) (ha : 0 ≤ a)
    (h : ParRange q s a (parStep (q ^ 2) ((a ^ 3 + 3 * q ^ 2 * a) / 6) s)) (m : ℕ) :
    |(parStep (q ^ 2) ((a ^ 3 + 3 * q ^ 2 * a) / 6))^[42 + m] s - a| ≤ (1 / 2) ^ 2 ^ m * max |a| q := by
  rw [ParRange, abs_of_nonneg ha] at h
  rw [abs_of_nonneg ha]
  rcases h with ⟨h1 | h1, h2⟩ | ⟨h1 | h1, h2⟩ | ⟨h1, h2⟩
  · exact par_out hq h1.1 h1.2 ((le_abs_self _).trans h2) m
  · obtain rfl : s = a := by linarith [h1.1, h1.2]
    exact par_out hq ha le_rfl ((le_abs_self _).trans h2) m
  · exact par_back hq h1.1 h1.2 ((le_abs_self _).trans h2) m
  · obtain rfl : a = 0 := le_antisymm h1.1 ha
    have hm : max 0 q = q := max_eq_right hq.le
    rw [hm] at h2 ⊢
    have e := par_iter_neg (q ^ 2) (((0 : ℝ) ^ 3 + 3 * q ^ 2 * 0) / 6) s (42 + m)
    rw [show -(((0 : ℝ) ^ 3 + 3 * q ^ 2 * 0) / 6) = ((0 : ℝ) ^ 3 + 3 * q ^ 2 * 0) / 6 by ring] at e
    have := par_back hq le_rfl (neg_nonneg.2 h1.2) (by rw [hm]; exact (neg_le_abs s).trans h2) m
    rwa [e, hm, sub_zero, abs_neg, ← sub_zero (Nat.iterate _ _ s)] at this
  · exact par_wide hq ha h1 h2 m

theorem par_range {q a s : ℝ} (hq : 0 < q)
    (h : ParRange q s a (parStep (q ^ 2) ((a ^ 3 + 3 * q ^ 2 * a) / 6) s)) (m : ℕ) :
    |(parStep (q ^ 2) ((a ^ 3 + 3 * q ^ 2 * a) / 6))^[42 + m] s - a| ≤ (1 / 2) ^ 2 ^ m * max |a| q := by
  rcases le_total 0 a with ha | ha
  · exact par_range_pos hq ha h m
  · have e : ((-a) ^ 3 + 3 * q ^ 2 * -a) / 6 = -((a ^ 3 + 3 * q ^ 2 * a) / 6) := by ring
    have e1 := par_iter_neg (q ^ 2) ((a ^ 3 + 3 * q ^ 2 * a) / 6) s 1
    simp only [Function.iterate_one] at e1
    have := par_range_pos (s := -s) hq (neg_nonneg.2 ha) (by
      rw [e, e1, ParRange, abs_neg, abs_neg, abs_neg]
      rcases h with ⟨h1 | h1, h2⟩ | ⟨h1 | h1, h2⟩ | h1
      · exact Or.inl ⟨Or.inr ⟨by linarith [h1.1], by linarith [h1.2]⟩, h2⟩
      · exact Or.inl ⟨Or.inl ⟨by linarith [h1.1], by linarith [h1.2]⟩, h2⟩
      · exact Or.inr (Or.inl ⟨Or.inr ⟨by linarith [h1.1], by linarith [h1.2]⟩, h2⟩)
      · exact Or.inr (Or.inl ⟨Or.inl ⟨by linarith [h1.1], by linarith [h1.2]⟩, h2⟩)
      · exact Or.inr (Or.inr h1)) m
    rw [e, par_iter_neg, abs_neg, show ∀ x : ℝ, -x - -a = -(x - a) from fun x => by ring, abs_neg] at this
    exact this

/-- The residual of Barker's equation. -/
theorem par_range_resid {q a s : ℝ} (hq : 0 < q)
    (h : ParRange q s a (parStep (q ^ 2) ((a ^ 3 + 3 * q ^ 2 * a) / 6) s)) (m : ℕ) :
    |(((parStep (q ^ 2) ((a ^ 3 + 3 * q ^ 2 * a) / 6))^[42 + m] s) ^ 3
      + 3 * q ^ 2 * ((parStep (q ^ 2) ((a ^ 3 + 3 * q ^ 2 * a) / 6))^[42 + m] s)) / 6
      - (a ^ 3 + 3 * q ^ 2 * a) / 6| ≤ max |a| q ^ 3 * (3 * (1 / 2) ^ 2 ^ m) := by
  have hb : 0 < max |a| q := lt_max_of_lt_right hq
  have key := par_range hq h m
  set x := (parStep (q ^ 2) ((a ^ 3 + 3 * q ^ 2 * a) / 6))^[42 + m] s
  set b := max |a| q
  have ha : |a| ≤ b := le_max_left _ _
  have hqb : q ≤ b := le_max_right _ _
  have hw : (1 / 2 : ℝ) ^ 2 ^ m ≤ 1 := pow_le_one₀ (by norm_num) (by norm_num)
  have hx : |x| ≤ 2 * b := by
    have h1 : |x| ≤ |x - a| + |a| := by simpa using abs_add_le (x - a) a
    nlinarith
  have e : (x ^ 3 + 3 * q ^ 2 * x) / 6 - (a ^ 3 + 3 * q ^ 2 * a) / 6
      = (x - a) * ((x ^ 2 + x * a + a ^ 2) / 6 + q ^ 2 / 2) := by ring
  have hx2 : x ^ 2 ≤ (2 * b) ^ 2 := by rw [← sq_abs]; exact pow_le_pow_left₀ (abs_nonneg x) hx 2
  have ha2 : a ^ 2 ≤ b ^ 2 := by rw [← sq_abs]; exact pow_le_pow_left₀ (abs_nonneg a) ha 2
  have hq2 : q ^ 2 ≤ b ^ 2 := pow_le_pow_left₀ hq.le hqb 2
  have h0 : 0 ≤ (x ^ 2 + x * a + a ^ 2) / 6 + q ^ 2 / 2 := by nlinarith [sq_nonneg (x + a), sq_nonneg q]
  have h3 : (x ^ 2 + x * a + a ^ 2) / 6 + q ^ 2 / 2 ≤ 3 * b ^ 2 := by nlinarith [sq_nonneg (x - a)]
  rw [e, abs_mul, abs_of_nonneg h0]
  calc _ ≤ (1 / 2) ^ 2 ^ m * b * (3 * b ^ 2) := mul_le_mul key h3 h0 (by positivity)
    _ = _ := by ring

variable {r v : V3 ℝ} {mu : ℝ}

/-- C59, the part that holds, in wide ranges on the way in or out and in both directions of time; `D0 = r·v/√mu`
at the start, `D1` at the end, `x1 = D0 + √mu t/r0` the first Newton iterate. -/
theorem C59_wide_default_partial (hmu : 0 < mu) (hh : angular_momentum r v ≠ ⟨0, 0, 0⟩)
    (hpar : V3.norm v ^ 2 / 2 - mu / V3.norm r = 0) {t : ℝ}
    (hrange : ParRange (Real.sqrt (pOf r v mu)) (sigma_fn r v mu)
      (sigma_fn (exactProp r v mu t).1 (exactProp r v mu t).2 mu) (sigma_fn r v mu + Real.sqrt mu * t / V3.norm r))
    (hsize : max |sigma_fn (exactProp r v mu t).1 (exactProp r v mu t).2 mu| (Real.sqrt (pOf r v mu)) ^ 3 ≤ 10 ^ 70)
    (max_iter : ℕ := 50) (hn : 50 ≤ max_iter) :
    ∃ χ, solve_kepler_uni t (alphaOf r v mu) (V3.norm r) (sigma_fn r v mu) mu defaultTol max_iter = some χ ∧
      |kepler_equ_uni χ (alphaOf r v mu) (V3.norm r) (sigma_fn r v mu) t mu| ≤ 1 / 1000000 := by
  have htol : (defaultTol : ℝ) = 1 / 1000000 := by norm_num [defaultTol]
  rw [alphaOf_par hmu hh hpar]
  obtain ⟨k, hk, -, hs, -, hstop⟩ := C13_uni t 0 (V3.norm r) (sigma_fn r v mu) mu defaultTol max_iter
  refine ⟨_, hs, ?_⟩
  rcases hk.lt_or_eq with h | h
  · have := hstop h
    simp only [lt_real, abs_real, decide_eq_false_iff_not, not_lt, htol] at this
    exact this
  · rw [C59_parabolic_newton hmu hh hpar, C53_parabolic_equation hmu hh hpar]
    have hroot := par_root hmu hh hpar t
    have hr0 := norm_par hmu hh hpar
    have hp := pOf_pos hh hmu
    have hq : 0 < Real.sqrt (pOf r v mu) := Real.sqrt_pos.2 hp
    have hqq : pOf r v mu = Real.sqrt (pOf r v mu) ^ 2 := (Real.sq_sqrt hp.le).symm
    obtain ⟨m, rfl⟩ : ∃ m, k = 42 + m := ⟨k - 42, by omega⟩
    have hstep : parStep (pOf r v mu) (parB r v mu t) (sigma_fn r v mu)
        = sigma_fn r v mu + Real.sqrt mu * t / V3.norm r := by
      rw [parStep, parB, hr0]; ring
    rw [← hstep, hroot, hqq] at hrange
    rw [Real.sqrt_sq (Real.sqrt_nonneg _)] at hrange
    have hres := par_range_resid hq hrange m
    rw [← hqq, ← hroot] at hres
    have e : ∀ x B1 B2 : ℝ, x - B1 - B2 = x - (B1 + B2) := fun x B1 B2 => by ring
    rw [e, ← parB]
    refine hres.trans ?_
    have h9 : (1 / 2 : ℝ) ^ 2 ^ m ≤ (1 / 10) ^ 77 := by
      have h8 : (1 / 2 : ℝ) ^ 2 ^ m ≤ (1 / 2) ^ 2 ^ 8 :=
        pow_le_pow_of_le_one (by norm_num) (by norm_num) (Nat.pow_le_pow_right (by norm_num) (by omega))
      exact h8.trans (by norm_num)
    calc _ ≤ (10 : ℝ) ^ 70 * (3 * (1 / 10) ^ 77) :=
          mul_le_mul hsize (mul_le_mul_of_nonneg_left h9 (by positivity)) (by positivity) (by positivity)
      _ ≤ 1 / 1000000 := by norm_num

/-- C59, `kepler` on these ranges: the returned state is exact at a time within the tolerance. -/
theorem C59_kepler_wide_partial (hmu : 0 < mu) (hh : angular_momentum r v ≠ ⟨0, 0, 0⟩)
    (hpar : V3.norm v ^ 2 / 2 - mu / V3.norm r = 0) {ts : List ℝ}
    (hts : ∀ t ∈ ts, ParRange (Real.sqrt (pOf r v mu)) (sigma_fn r v mu)
        (sigma_fn (exactProp r v mu t).1 (exactProp r v mu t).2 mu) (sigma_fn r v mu + Real.sqrt mu * t / V3.norm r) ∧
      max |sigma_fn (exactProp r v mu t).1 (exactProp r v mu t).2 mu| (Real.sqrt (pOf r v mu)) ^ 3 ≤ 10 ^ 70)
    {rs vs : List (V3 ℝ)} (hk : kepler ts r v mu = some (rs, vs)) {i : ℕ} {r' v' : V3 ℝ}
    (hr' : rs[i]? = some r') (hv' : vs[i]? = some v') :
    ∃ t t', ts[i]? = some t ∧ |t' - t| ≤ 1 / 1000000 / Real.sqrt mu ∧ (r', v') = exactProp r v mu t' := by
  obtain ⟨t, χ, t', h1, h2, h3, h4, -⟩ := C23_exact_up_to_time hmu hh hk hr' hv'
  obtain ⟨c1, c2⟩ := hts t (List.mem_of_getElem? h1)
  obtain ⟨χ', h5, h6⟩ := C59_wide_default_partial hmu hh hpar c1 c2 50 le_rfl
  obtain rfl : χ' = χ := Option.some.inj (h5.symm.trans h2)
  refine ⟨t, t', h1, ?_, h4⟩
  rw [h3, add_sub_cancel_left, abs_div, abs_of_pos (Real.sqrt_pos.2 hmu)]
  exact div_le_div_of_nonneg_right h6 (Real.sqrt_nonneg _)

/-- From periapsis, forwards or backwards: every time of flight up to `5·10^9 p^{3/2}/√mu`. -/
theorem C59_from_periapsis_partial (hmu : 0 < mu) (hh : angular_momentum r v ≠ ⟨0, 0, 0⟩)
    (hpar : V3.norm v ^ 2 / 2 - mu / V3.norm r = 0) (hσ : sigma_fn r v mu = 0)
    (hsize : Real.sqrt (pOf r v mu) ^ 3 ≤ 10 ^ 40) {t : ℝ}
    (ht : Real.sqrt mu * |t| ≤ 5 * 10 ^ 9 * Real.sqrt (pOf r v mu) ^ 3) :
    ∃ r' v' t', kepler [t] r v mu = some ([r'], [v']) ∧ |t' - t| ≤ 1 / 1000000 / Real.sqrt mu ∧
      (r', v') = exactProp r v mu t' := by
  obtain ⟨⟨rs, vs⟩, hk⟩ : ∃ p, kepler [t] r v mu = some p := ⟨_, kepler_eq_map ..⟩
  have hlen : rs.length = 1 ∧ vs.length = 1 := by
    have hk' := hk
    rw [kepler_eq_map] at hk'
    obtain ⟨rfl, rfl⟩ := Prod.mk.inj (Option.some.inj hk')
    simp
  obtain ⟨r', rfl⟩ := List.length_eq_one_iff.1 hlen.1
  obtain ⟨v', rfl⟩ := List.length_eq_one_iff.1 hlen.2
  have hroot := par_root hmu hh hpar t
  have hr0 := norm_par hmu hh hpar
  have hp := pOf_pos hh hmu
  have hq : 0 < Real.sqrt (pOf r v mu) := Real.sqrt_pos.2 hp
  have hqq : pOf r v mu = Real.sqrt (pOf r v mu) ^ 2 := (Real.sq_sqrt hp.le).symm
  have hrange : ∀ t' ∈ [t], ParRange (Real.sqrt (pOf r v mu)) (sigma_fn r v mu)
        (sigma_fn (exactProp r v mu t').1 (exactProp r v mu t').2 mu) (sigma_fn r v mu + Real.sqrt mu * t' / V3.norm r) ∧
      max |sigma_fn (exactProp r v mu t').1 (exactProp r v mu t').2 mu| (Real.sqrt (pOf r v mu)) ^ 3 ≤ 10 ^ 70 := by
    intro t' ht'
    obtain rfl : t' = t := by simpa using ht'
    rw [parB, hσ] at hroot
    rw [hr0, hσ]
    set a := sigma_fn (exactProp r v mu t').1 (exactProp r v mu t').2 mu
    set q := Real.sqrt (pOf r v mu)
    rw [hqq] at hroot ⊢
    have hT : |Real.sqrt mu * t'| ≤ 5 * 10 ^ 9 * q ^ 3 := by
      rwa [abs_mul, abs_of_nonneg (Real.sqrt_nonneg _)]
    have hra : Real.sqrt mu * t' = a * ((a ^ 2 + 3 * q ^ 2) / 6) := by
      have : (a ^ 3 + 3 * q ^ 2 * a) / 6 = a * ((a ^ 2 + 3 * q ^ 2) / 6) := by ring
      rw [← this, ← hroot]; ring
    have hfac : 0 < (a ^ 2 + 3 * q ^ 2) / 6 := by positivity
    refine ⟨Or.inl ⟨?_, ?_⟩, ?_⟩
    · rcases le_total 0 a with h | h
      · exact Or.inl ⟨le_rfl, h⟩
      · exact Or.inr ⟨le_rfl, h⟩
    · rw [zero_add, abs_div, abs_of_pos (a := ((0 : ℝ) ^ 2 + q ^ 2) / 2) (by positivity), div_le_iff₀ (by positivity)]
      refine hT.trans (le_of_eq ?_)
      ring
    · have h3 : max |a| q ^ 3 ≤ 3 * 10 ^ 10 * q ^ 3 := by
        rcases max_choice |a| q with h | h <;> rw [h]
        · have h1 : |a| * ((a ^ 2 + 3 * q ^ 2) / 6) ≤ 5 * 10 ^ 9 * q ^ 3 := by
            rw [← abs_of_pos hfac, ← abs_mul, ← hra]; exact hT
          have h2 : |a| ^ 3 = |a| * a ^ 2 := by rw [pow_succ', sq_abs]
          have h4 : 0 ≤ |a| * q ^ 2 := by positivity
          rw [h2]; nlinarith
        · have : 0 < q ^ 3 := by positivity
          nlinarith
      calc _ ≤ 3 * 10 ^ 10 * q ^ 3 := h3
        _ ≤ 3 * 10 ^ 10 * 10 ^ 40 := mul_le_mul_of_nonneg_left hsize (by norm_num)
        _ ≤ 10 ^ 70 := by norm_num
  obtain ⟨t1, t', e1, e2, e3⟩ := C59_kepler_wide_partial hmu hh hpar hrange hk (i := 0) (r' := r') (v' := v') rfl rfl
  obtain rfl : t = t1 := by simpa using e1
  exact ⟨r', v', t', hk, e2, e3⟩

/-- From the periapsis of any parabola, for times of flight beyond `10^13 p^{3/2}/√mu`, `kepler` silently returns the
state of at least four thirds of the requested time. -/
theorem C59_periapsis_far_refuted (hmu : 0 < mu) (hh : angular_momentum r v ≠ ⟨0, 0, 0⟩)
    (hpar : V3.norm v ^ 2 / 2 - mu / V3.norm r = 0) (hσ : sigma_fn r v mu = 0) {t : ℝ}
    (ht : 10 ^ 13 * Real.sqrt (pOf r v mu) ^ 3 ≤ Real.sqrt mu * t) (htol : 1 / 1000000 < Real.sqrt mu * t) :
    ∃ r' v' t', kepler [t] r v mu = some ([r'], [v']) ∧ (r', v') = exactProp r v mu t' ∧ 4 / 3 * t ≤ t' := by
  obtain ⟨⟨rs, vs⟩, hk⟩ : ∃ p, kepler [t] r v mu = some p := ⟨_, kepler_eq_map ..⟩
  have hlen : rs.length = 1 ∧ vs.length = 1 := by
    rw [kepler_eq_map] at hk
    obtain ⟨rfl, rfl⟩ := Prod.mk.inj (Option.some.inj hk)
    simp
  obtain ⟨r', rfl⟩ := List.length_eq_one_iff.1 hlen.1
  obtain ⟨v', rfl⟩ := List.length_eq_one_iff.1 hlen.2
  obtain ⟨t1, χ, t', h1, h2, h3, h4, -⟩ := C23_exact_up_to_time (r := r) (v := v) hmu hh hk
    (i := 0) (r' := r') (v' := v') rfl rfl
  obtain rfl : t = t1 := by simpa using h1
  refine ⟨r', v', t', hk, h4, ?_⟩
  rw [alphaOf_par hmu hh hpar] at h2 h3
  obtain ⟨k, hk', -, hs, -, hstop⟩ := C13_uni t 0 (V3.norm r) (sigma_fn r v mu) mu defaultTol 50
  have h6 := Option.some.inj (hs.symm.trans h2)
  have hsq : 0 < Real.sqrt mu := Real.sqrt_pos.2 hmu
  have hp := pOf_pos hh hmu
  have hq : 0 < Real.sqrt (pOf r v mu) := Real.sqrt_pos.2 hp
  have hqq : pOf r v mu = Real.sqrt (pOf r v mu) ^ 2 := (Real.sq_sqrt hp.le).symm
  have hB : parB r v mu t = Real.sqrt mu * t := by rw [parB, hσ]; ring
  -- at least one step is made
  have hk0 : k ≠ 0 := by
    rintro rfl
    have := hstop (by norm_num)
    rw [C59_parabolic_newton hmu hh hpar, C53_parabolic_equation hmu hh hpar, hσ] at this
    simp only [lt_real, abs_real, decide_eq_false_iff_not, not_lt, Function.iterate_zero, id_eq, defaultTol,
      Nat.cast_one, Nat.cast_ofNat] at this
    rw [show ((0 : ℝ) ^ 3 + 3 * pOf r v mu * 0) / 6 - (0 ^ 3 + 3 * pOf r v mu * 0) / 6 - Real.sqrt mu * t
      = -(Real.sqrt mu * t) by ring, abs_neg, abs_of_pos (by linarith)] at this
    norm_num at this htol
    linarith
  obtain ⟨j, rfl⟩ := Nat.exists_eq_succ_of_ne_zero hk0
  rw [← h6, C59_parabolic_newton hmu hh hpar, C53_parabolic_equation hmu hh hpar, hB, hσ,
    Function.iterate_succ_apply, hqq] at h3
  set q := Real.sqrt (pOf r v mu)
  set T := Real.sqrt mu * t
  have hT0 : 0 < T := lt_of_lt_of_le (by positivity) ht
  have hy : parStep (q ^ 2) T 0 = 2 * T / q ^ 2 := by rw [parStep]; field_simp; ring
  rw [hy] at h3
  have hT2 : 10 ^ 13 * q ≤ T / q ^ 2 := by
    rw [le_div_iff₀ (by positivity)]
    calc 10 ^ 13 * q * q ^ 2 = 10 ^ 13 * q ^ 3 := by ring
      _ ≤ T := ht
  have hit : ∀ i, i ≤ 49 → 0.666 ^ i * (2 * T / q ^ 2) ≤ (parStep (q ^ 2) T)^[i] (2 * T / q ^ 2) := by
    intro i
    induction i with
    | zero => simp
    | succ i ih =>
      intro hi
      have h7 := ih (by omega)
      rw [Function.iterate_succ_apply']
      have h8 : (0.666 : ℝ) ^ 49 ≤ 0.666 ^ i := pow_le_pow_of_le_one (by norm_num) (by norm_num) (by omega)
      have h9 : (2.2 : ℝ) / 10 ^ 9 ≤ 0.666 ^ 49 := by norm_num
      have h10 : 100 * q ≤ (parStep (q ^ 2) T)^[i] (2 * T / q ^ 2) := by
        refine le_trans ?_ h7
        calc 100 * q ≤ 2.2 / 10 ^ 9 * (2 * (10 ^ 13 * q)) := by nlinarith
          _ ≤ 0.666 ^ i * (2 * (T / q ^ 2)) := mul_le_mul (h9.trans h8) (by linarith) (by positivity) (by positivity)
          _ = _ := by ring
      refine le_trans (le_of_eq ?_) ((mul_le_mul_of_nonneg_left h7 (by norm_num)).trans (par_slow hq hT0.le h10))
      rw [pow_succ']; ring
  have h7 := hit j (by omega)
  set x := (parStep (q ^ 2) T)^[j] (2 * T / q ^ 2)
  have h8 : (2.2 : ℝ) / 10 ^ 9 ≤ 0.666 ^ j :=
    le_trans (by norm_num : (2.2 : ℝ) / 10 ^ 9 ≤ 0.666 ^ 49) (pow_le_pow_of_le_one (by norm_num) (by norm_num) (by omega))
  have h9 : 4.4 / 10 ^ 9 * (T / q ^ 2) ≤ x := by
    refine le_trans ?_ h7
    calc 4.4 / 10 ^ 9 * (T / q ^ 2) = 2.2 / 10 ^ 9 * (2 * T / q ^ 2) := by ring
      _ ≤ _ := mul_le_mul_of_nonneg_right h8 (by positivity)
  -- the residual
  have h10 : 4 / 3 * T ≤ x ^ 3 / 6 := by
    have h11 : (4.4 / 10 ^ 9 * (T / q ^ 2)) ^ 3 ≤ x ^ 3 := pow_le_pow_left₀ (by positivity) h9 3
    have h12 : 8 * T ≤ (4.4 / 10 ^ 9 * (T / q ^ 2)) ^ 3 := by
      have e : (4.4 / 10 ^ 9 * (T / q ^ 2)) ^ 3 = (4.4 / 10 ^ 9) ^ 3 * (T / q ^ 3) ^ 2 * T := by field_simp
      have h13 : 10 ^ 13 ≤ T / q ^ 3 := by rw [le_div_iff₀ (by positivity)]; exact ht
      have h14 : (10 ^ 13) ^ 2 ≤ (T / q ^ 3) ^ 2 := pow_le_pow_left₀ (by positivity) h13 2
      rw [e]
      refine mul_le_mul_of_nonneg_right ?_ hT0.le
      calc (8 : ℝ) ≤ (4.4 / 10 ^ 9) ^ 3 * (10 ^ 13) ^ 2 := by norm_num
        _ ≤ _ := mul_le_mul_of_nonneg_left h14 (by positivity)
    linarith
  have hx0 : 0 ≤ x := le_trans (by positivity) h9
  have h15 : 4 / 3 * T ≤ (t' ) * Real.sqrt mu := by
    have h16 : t' * Real.sqrt mu = (x ^ 3 + 3 * q ^ 2 * x) / 6 := by
      rw [h3, add_mul, div_mul_cancel₀ _ hsq.ne']
      show t * Real.sqrt mu + _ = _
      have : T = t * Real.sqrt mu := mul_comm _ _
      rw [← this]; ring
    rw [h16]
    have : 0 ≤ 3 * q ^ 2 * x := by positivity
    linarith
  have h17 : 4 / 3 * t * Real.sqrt mu ≤ t' * Real.sqrt mu := by
    have : 4 / 3 * T = 4 / 3 * t * Real.sqrt mu := by show 4 / 3 * (Real.sqrt mu * t) = _; ring
    linarith
  exact le_of_mul_le_mul_right h17 hsq

/-- The parabola `r = (1,0,0)`, `v = (0,1,0)`, `mu = 1/2`: every time of flight up to `10^10` either way. -/
theorem C59_wide_example (t : ℝ) (ht : |t| ≤ 10 ^ 10) :
    ∃ r' v' t', kepler [t] (⟨1, 0, 0⟩ : V3 ℝ) ⟨0, 1, 0⟩ (1 / 2) = some ([r'], [v']) ∧
      |t' - t| ≤ 1 / 1000000 / Real.sqrt (1 / 2) ∧ (r', v') = exactProp ⟨1, 0, 0⟩ ⟨0, 1, 0⟩ (1 / 2) t' := by
  obtain ⟨hh, hpar, hσ, hp, hn⟩ := par_state
  have hs2 : Real.sqrt 2 ^ 2 = 2 := Real.sq_sqrt (by norm_num)
  have h2 : Real.sqrt 2 ≤ 2 := by rw [Real.sqrt_le_left (by norm_num)]; norm_num
  have h1 : 0 < Real.sqrt 2 := by positivity
  have hh2 : Real.sqrt (1 / 2) = Real.sqrt 2 / 2 := by
    rw [Real.sqrt_div (by norm_num), Real.sqrt_one]
    field_simp
    linarith
  refine C59_from_periapsis_partial (by norm_num) hh hpar hσ ?_ ?_ <;> rw [hp, show Real.sqrt 2 ^ 3 = 2 * Real.sqrt 2 by rw [pow_succ, hs2]]
  · linarith
  · rw [hh2]
    nlinarith [abs_nonneg t]

end Adx
