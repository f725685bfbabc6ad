import Verif.Spec.Underflow
import Verif.Lemmas.SqrtSq
import Verif.Lemmas.Mono

/-! # Binary formats with underflow -/

namespace Adx
open Spec

/-- The smallest normal number with `p` digits when the smallest positive number is `2^q`. -/
noncomputable def nuB (p : ℕ) (q : ℤ) : ℝ := (2 : ℝ) ^ (q + p - 1)

/-- Unit in the last place with gradual underflow. -/
noncomputable def ulpU (p : ℕ) (q : ℤ) (x : ℝ) : ℝ := max (ulpB p x) ((2 : ℝ) ^ q)

/-- Rounding to nearest, ties to even, with gradual underflow (IEEE 754). -/
noncomputable def rdU (p : ℕ) (q : ℤ) (x : ℝ) : ℝ := rne (x / ulpU p q x) * ulpU p q x

open Classical in
/-- Rounding with subnormal results flushed to zero. -/
noncomputable def rdZ (p : ℕ) (q : ℤ) (x : ℝ) : ℝ := if |x| < nuB p q then 0 else rdB p x

/-- Arithmetic with a given rounding and correctly rounded elementary functions. -/
noncomputable def FpOf (rd : ℝ → ℝ) : Fp where
  rd := rd
  sin x := rd (Real.sin x)
  cos x := rd (Real.cos x)
  sinh x := rd (Real.sinh x)
  cosh x := rd (Real.cosh x)
  log x := rd (Real.log x)
  cbrt x := rd (realCbrt x)
  arccos x := rd (Real.arccos x)
  arctan2 y x := rd (Complex.arg ⟨x, y⟩)

/-- Gradual underflow. -/
noncomputable abbrev FU (p : ℕ) (q : ℤ) : Fp := FpOf (rdU p q)
/-- Flush to zero. -/
noncomputable abbrev FZ (p : ℕ) (q : ℤ) : Fp := FpOf (rdZ p q)

theorem nuB_pos (p : ℕ) (q : ℤ) : 0 < nuB p q := by unfold nuB; positivity

theorem log_ge_of_nu {p : ℕ} {q : ℤ} {x : ℝ} (h : nuB p q ≤ |x|) : q + p - 1 ≤ Int.log 2 |x| :=
  (Int.zpow_le_iff_le_log (b := 2) (by norm_num) (lt_of_lt_of_le (nuB_pos p q) h)).1 (by exact_mod_cast h)

theorem ulpU_normal {p : ℕ} {q : ℤ} {x : ℝ} (h : nuB p q ≤ |x|) : ulpU p q x = ulpB p x := by
  refine max_eq_left ?_
  unfold ulpB
  refine zpow_le_zpow_right₀ (by norm_num) ?_
  have := log_ge_of_nu h
  omega

theorem rdU_normal {p : ℕ} {q : ℤ} {x : ℝ} (h : nuB p q ≤ |x|) : rdU p q x = rdB p x := by
  rw [rdU, ulpU_normal h, rdB]

theorem rdU_zero (p : ℕ) (q : ℤ) : rdU p q 0 = 0 := by
  have : rne (0 : ℝ) = 0 := by exact_mod_cast rne_intCast 0
  simp [rdU, this]

theorem ulpU_sub {p : ℕ} {q : ℤ} {x : ℝ} (hx : x ≠ 0) (h : |x| < nuB p q) : ulpU p q x = (2 : ℝ) ^ q := by
  refine max_eq_right ?_
  unfold ulpB
  refine zpow_le_zpow_right₀ (by norm_num) ?_
  have := (Int.lt_zpow_iff_log_lt (b := 2) (by norm_num) (abs_pos.2 hx) (x := q + p - 1)).1 (by exact_mod_cast h)
  omega

theorem rdU_sub {p : ℕ} {q : ℤ} {x : ℝ} (h : |x| < nuB p q) : rdU p q x = rne (x / 2 ^ q) * 2 ^ q := by
  rcases eq_or_ne x 0 with rfl | hx
  · have : rne (0 : ℝ) = 0 := by exact_mod_cast rne_intCast 0
    rw [rdU_zero, zero_div, this]; simp
  · rw [rdU, ulpU_sub hx h]

theorem rdU_tiny {p : ℕ} {q : ℤ} {x : ℝ} (h : |x| < nuB p q) : |rdU p q x - x| ≤ (2 : ℝ) ^ (q - 1) := by
  rw [rdU_sub h]
  have hq : (0 : ℝ) < (2 : ℝ) ^ q := by positivity
  have e : (rne (x / 2 ^ q) : ℝ) * 2 ^ q - x = ((rne (x / 2 ^ q) : ℝ) - x / 2 ^ q) * 2 ^ q := by field_simp
  rw [e, abs_mul, abs_of_pos hq, zpow_sub_one₀ (by norm_num)]
  have := rne_err (x / 2 ^ q)
  nlinarith

/-- Results up to half the smallest positive number vanish. -/
theorem rdU_lost {p : ℕ} (hp : 1 ≤ p) {q : ℤ} {x : ℝ} (h : |x| ≤ (2 : ℝ) ^ (q - 1)) : rdU p q x = 0 := by
  have hq : (0 : ℝ) < (2 : ℝ) ^ q := by positivity
  have hlt : |x| < nuB p q := by
    refine lt_of_le_of_lt h (zpow_lt_zpow_right₀ (by norm_num) ?_)
    omega
  rw [rdU_sub hlt]
  have h2 : |x / 2 ^ q| ≤ 1 / 2 := by
    rw [abs_div, abs_of_pos hq, div_le_iff₀ hq]
    rw [zpow_sub_one₀ (by norm_num)] at h
    linarith
  have : rne (x / 2 ^ q) = 0 := by
    rcases lt_or_eq_of_le h2 with h3 | h3
    · exact rne_eq_of_near (by simpa using h3)
    · have hpos : rne (1 / 2 : ℝ) = 0 := by
        have hf : ⌊(1 / 2 : ℝ)⌋ = 0 := by norm_num
        have hr : Int.fract (1 / 2 : ℝ) = 1 / 2 := by rw [Int.fract, hf]; norm_num
        unfold rne; rw [hr, hf]; simp
      rcases abs_choice (x / 2 ^ q) with h4 | h4
      · rw [h4] at h3; rw [h3, hpos]
      · rw [h4] at h3
        rw [show x / 2 ^ q = -(1 / 2) by linarith, rne_neg, hpos]; rfl
  rw [this]; simp

theorem rdU_neg (p : ℕ) (q : ℤ) (x : ℝ) : rdU p q (-x) = -rdU p q x := by
  have : ulpU p q (-x) = ulpU p q x := by rw [ulpU, ulpU, ulpB, ulpB, abs_neg]
  rw [rdU, rdU, this, neg_div, rne_neg]; push_cast; ring

theorem rdU_nonneg (p : ℕ) (q : ℤ) {x : ℝ} (h : 0 ≤ x) : 0 ≤ rdU p q x := by
  have hu : 0 < ulpU p q x := lt_of_lt_of_le (ulpB_pos p x) (le_max_left _ _)
  have h1 : rne (0 : ℝ) ≤ rne (x / ulpU p q x) := rne_mono (by positivity)
  have : rne (0 : ℝ) = 0 := by exact_mod_cast rne_intCast 0
  rw [this] at h1
  exact mul_nonneg (by exact_mod_cast h1) hu.le

theorem abs_rdB_ge {p : ℕ} (hp : 1 ≤ p) {q : ℤ} {x : ℝ} (h : nuB p q ≤ |x|) : nuB p q ≤ |rdB p x| := by
  rw [← rdB_abs]; exact rdB_ge_zpow hp h

theorem rdU_idem {p : ℕ} (hp : 1 ≤ p) (q : ℤ) (x : ℝ) : rdU p q (rdU p q x) = rdU p q x := by
  rcases le_or_gt (nuB p q) |x| with h | h
  · rw [rdU_normal h, rdU_normal (abs_rdB_ge hp h), rdB_rdB hp]
  · rw [rdU_sub h]
    set m := rne (x / 2 ^ q)
    have hq : (0 : ℝ) < (2 : ℝ) ^ q := by positivity
    rcases lt_or_ge |(m : ℝ) * 2 ^ q| (nuB p q) with h1 | h1
    · rw [rdU_sub h1, mul_div_assoc, div_self hq.ne', mul_one, rne_intCast]
    · -- rounded up to the smallest normal number
      rw [rdU_normal h1]
      have hm : |m| ≤ 2 ^ (p - 1) := by
        have h2 : |x / 2 ^ q| < 2 ^ (p - 1) := by
          rw [abs_div, abs_of_pos hq, div_lt_iff₀ hq]
          refine lt_of_lt_of_eq h ?_
          unfold nuB
          rw [← zpow_natCast, ← zpow_add₀ (by norm_num)]
          congr 1; push_cast [Nat.cast_sub hp]; ring
        have h3 := rne_err (x / 2 ^ q)
        have h4 : |(m : ℝ)| < 2 ^ (p - 1) + 1 := by
          calc |(m : ℝ)| = |((m : ℝ) - x / 2 ^ q) + x / 2 ^ q| := by ring_nf
            _ ≤ |(m : ℝ) - x / 2 ^ q| + |x / 2 ^ q| := abs_add_le _ _
            _ < _ := by linarith
        have h5 : |m| < 2 ^ (p - 1) + 1 := by exact_mod_cast h4
        omega
      have hmr : |(m : ℝ)| ≤ 2 ^ (p - 1) := by exact_mod_cast hm
      have hnu : nuB p q = 2 ^ (p - 1) * 2 ^ q := by
        unfold nuB
        rw [← zpow_natCast, ← zpow_add₀ (by norm_num)]
        congr 1; push_cast [Nat.cast_sub hp]; ring
      have he : |(m : ℝ) * 2 ^ q| = nuB p q := by
        refine le_antisymm ?_ h1
        rw [abs_mul, abs_of_pos hq, hnu]
        exact mul_le_mul_of_nonneg_right hmr hq.le
      rcases abs_choice ((m : ℝ) * 2 ^ q) with h4 | h4
      · rw [h4] at he; rw [he]; exact rdB_zpow hp _
      · rw [h4] at he
        rw [show (m : ℝ) * 2 ^ q = -nuB p q by linarith, rdB_neg]
        congr 1; exact rdB_zpow hp _

/-- A number of the format is a multiple of its unit in the last place. -/
theorem rdB_gap {p : ℕ} {x y : ℝ} {a b : ℤ} (hx : ∃ m : ℤ, x = m * (2 : ℝ) ^ a) (hy : ∃ m : ℤ, y = m * (2 : ℝ) ^ b)
    (hxy : x ≠ y) (ha : (2 : ℝ) ^ (-(p : ℤ)) * |x| ≤ (2 : ℝ) ^ a) (hb : (2 : ℝ) ^ (-(p : ℤ)) * |y| ≤ (2 : ℝ) ^ b) :
    (2 : ℝ) ^ (-(p : ℤ)) * min |x| |y| ≤ |x - y| := by
  have hp : (0 : ℝ) < (2 : ℝ) ^ (-(p : ℤ)) := by positivity
  have key : ∀ (x y : ℝ) (a b : ℤ), (∃ m : ℤ, x = m * (2 : ℝ) ^ a) → (∃ m : ℤ, y = m * (2 : ℝ) ^ b) → x ≠ y → a ≤ b →
      (2 : ℝ) ^ a ≤ |x - y| := by
    rintro x y a b ⟨m, hm⟩ ⟨n, hn⟩ hxy hab
    obtain ⟨k, rfl⟩ := Int.le.dest hab
    have e : x - y = ((m - n * 2 ^ k : ℤ) : ℝ) * 2 ^ a := by
      rw [hm, hn, zpow_add₀ (by norm_num)]; push_cast; rw [zpow_natCast]; ring
    have hq : (0 : ℝ) < (2 : ℝ) ^ a := by positivity
    have hne : (m - n * 2 ^ k : ℤ) ≠ 0 := by
      intro h; rw [h] at e; apply hxy; simpa [sub_eq_zero] using e
    rw [e, abs_mul, abs_of_pos hq]
    have : (1 : ℝ) ≤ |((m - n * 2 ^ k : ℤ) : ℝ)| := by exact_mod_cast Int.one_le_abs hne
    nlinarith
  rcases le_total a b with h | h
  · refine le_trans ?_ (key x y a b hx hy hxy h)
    exact (mul_le_mul_of_nonneg_left (min_le_left _ _) hp.le).trans ha
  · refine le_trans ?_ ((key y x b a hy hx hxy.symm h).trans_eq (abs_sub_comm _ _))
    exact (mul_le_mul_of_nonneg_left (min_le_right _ _) hp.le).trans hb

theorem ulpB_ge (p : ℕ) (x : ℝ) : (2 : ℝ) ^ (-(p : ℤ)) * |x| ≤ ulpB p x := by
  have h := Int.lt_zpow_succ_log_self (b := 2) (by norm_num) |x|
  have e : ulpB p x = (2 : ℝ) ^ (-(p : ℤ)) * (2 : ℝ) ^ (Int.log 2 |x| + 1) := by
    unfold ulpB
    rw [← zpow_add₀ (by norm_num)]; congr 1; ring
  rw [e]
  refine mul_le_mul_of_nonneg_left ?_ (by positivity)
  exact_mod_cast h.le

theorem rdB_grid {p : ℕ} {x : ℝ} (h : rdB p x = x) :
    ∃ a : ℤ, (∃ m : ℤ, x = m * (2 : ℝ) ^ a) ∧ (2 : ℝ) ^ (-(p : ℤ)) * |x| ≤ (2 : ℝ) ^ a := by
  obtain ⟨m, hm⟩ := rdB_fix x h
  exact ⟨_, ⟨m, hm⟩, ulpB_ge p x⟩

theorem rdU_grid {p : ℕ} {q : ℤ} {x : ℝ} (h : rdU p q x = x) :
    ∃ a : ℤ, (∃ m : ℤ, x = m * (2 : ℝ) ^ a) ∧ (2 : ℝ) ^ (-(p : ℤ)) * |x| ≤ (2 : ℝ) ^ a := by
  rcases le_or_gt (nuB p q) |x| with h1 | h1
  · rw [rdU_normal h1] at h; exact rdB_grid h
  · rw [rdU_sub h1] at h
    refine ⟨q, ⟨_, h.symm⟩, ?_⟩
    calc (2 : ℝ) ^ (-(p : ℤ)) * |x| ≤ (2 : ℝ) ^ (-(p : ℤ)) * nuB p q := by gcongr
      _ = (2 : ℝ) ^ (q - 1) := by unfold nuB; rw [← zpow_add₀ (by norm_num)]; congr 1; ring
      _ ≤ _ := zpow_le_zpow_right₀ (by norm_num) (by omega)

theorem rdZ_normal {p : ℕ} {q : ℤ} {x : ℝ} (h : nuB p q ≤ |x|) : rdZ p q x = rdB p x := if_neg (not_lt.2 h)
theorem rdZ_tiny {p : ℕ} {q : ℤ} {x : ℝ} (h : |x| < nuB p q) : rdZ p q x = 0 := if_pos h

/-- A rounding that agrees with `rdB` on normal numbers. -/
theorem uModel_of {p : ℕ} (hp : 10 ≤ p) {q : ℤ} (hq : q + p ≤ -10) {rd : ℝ → ℝ} {η : ℝ} (h0 : 0 ≤ η) (hη : η ≤ nuB p q)
    (h1 : ∀ x, nuB p q ≤ |x| → rd x = rdB p x) (h2 : ∀ x, |x| < nuB p q → |rd x - x| ≤ η) (h3 : ∀ x, 0 ≤ x → 0 ≤ rd x)
    (h4 : ∀ x, rd (-x) = -rd x) (h5 : ∀ x, rd (rd x) = rd x)
    (h6 : ∀ x, rd x = x → ∃ a : ℤ, (∃ m : ℤ, x = m * (2 : ℝ) ^ a) ∧ (2 : ℝ) ^ (-(p : ℤ)) * |x| ≤ (2 : ℝ) ^ a) :
    UModel (FpOf rd) ((2 : ℝ) ^ (-(p : ℤ))) 1 (nuB p q) η := by
  have hs := stdModel_FB p hp
  have hnu : nuB p q ≤ 1 / 1000 := by
    calc nuB p q ≤ (2 : ℝ) ^ (-10 : ℤ) := zpow_le_zpow_right₀ (by norm_num) (by omega)
      _ ≤ _ := by norm_num
  have hz : rd 0 = 0 := by have := h4 0; rw [neg_zero] at this; linarith
  have lf : ∀ f : ℝ → ℝ, LibFun (FpOf rd) ((2 : ℝ) ^ (-(p : ℤ))) 1 (nuB p q) η (fun x => rd (f x)) f := by
    intro f x
    refine ⟨fun h => ?_, fun h => ?_, h5 _⟩
    · show Within _ 1 (rd (f x)) (f x)
      rw [h1 _ h]; exact hs.within_rd _
    · rw [one_mul]; exact h2 _ h
  refine ⟨hs.u_pos, hs.u_small, le_rfl, by norm_num, nuB_pos p q, hnu, h0, hη, fun x h => ?_, h2, h3, h4, h5, ?_, ?_,
    lf _, lf _, lf _, lf _, lf _, lf _, lf _, fun y => lf _⟩
  · show |rd x - x| ≤ _
    rw [h1 x h]; exact rdB_rel p x
  · intro x y hx hy hxy
    obtain ⟨a, ha, ha'⟩ := h6 x hx
    obtain ⟨b, hb, hb'⟩ := h6 y hy
    exact rdB_gap ha hb hxy ha' hb'
  · intro n hn
    show rd n = n
    rcases Nat.eq_zero_or_pos n with rfl | hn0
    · simpa using hz
    · have : (1 : ℝ) ≤ n := by exact_mod_cast hn0
      rw [h1 _ (by rw [Nat.abs_cast]; linarith)]
      exact hs.lit n hn

theorem uModel_FU {p : ℕ} (hp : 10 ≤ p) {q : ℤ} (hq : q + p ≤ -10) :
    UModel (FU p q) ((2 : ℝ) ^ (-(p : ℤ))) 1 (nuB p q) ((2 : ℝ) ^ (q - 1)) :=
  uModel_of hp hq (by positivity) (zpow_le_zpow_right₀ (by norm_num) (by omega)) (fun _ => rdU_normal) (fun _ => rdU_tiny)
    (fun _ => rdU_nonneg p q) (rdU_neg p q) (rdU_idem (by omega) q) (fun _ => rdU_grid)

theorem uModel_FZ {p : ℕ} (hp : 10 ≤ p) {q : ℤ} (hq : q + p ≤ -10) :
    UModel (FZ p q) ((2 : ℝ) ^ (-(p : ℤ))) 1 (nuB p q) (nuB p q) := by
  refine uModel_of hp hq (nuB_pos p q).le le_rfl (fun _ => rdZ_normal) (fun x h => ?_) (fun x h => ?_) (fun x => ?_)
    (fun x => ?_) (fun x h => ?_)
  · rw [rdZ_tiny h, zero_sub, abs_neg]; exact h.le
  · rcases lt_or_ge |x| (nuB p q) with h1 | h1
    · rw [rdZ_tiny h1]
    · rw [rdZ_normal h1]; exact rdB_nonneg p h
  · rcases lt_or_ge |x| (nuB p q) with h1 | h1
    · rw [rdZ_tiny h1, rdZ_tiny (by rwa [abs_neg]), neg_zero]
    · rw [rdZ_normal h1, rdZ_normal (by rwa [abs_neg]), rdB_neg]
  · rcases lt_or_ge |x| (nuB p q) with h1 | h1
    · rw [rdZ_tiny h1, rdZ_tiny (by rw [abs_zero]; exact nuB_pos p q)]
    · rw [rdZ_normal h1, rdZ_normal (abs_rdB_ge (by omega) h1), rdB_rdB (by omega)]
  · rcases lt_or_ge |x| (nuB p q) with h1 | h1
    · rw [rdZ_tiny h1] at h; subst h
      exact ⟨0, ⟨0, by simp⟩, by simp⟩
    · rw [rdZ_normal h1] at h; exact rdB_grid h

end Adx
