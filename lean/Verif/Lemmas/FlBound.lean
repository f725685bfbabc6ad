import Verif.Fl
import Verif.Lemmas.Formats

/-! # Bounded finite floating-point numbers, agreement with `Rnd` below overflow, powers that overflow -/

namespace Adx
open Spec

/-- The largest finite binary32 number. -/
noncomputable def omega32 : ℝ := (2 ^ 24 - 1) * 2 ^ 104
/-- The largest finite binary64 number. -/
noncomputable def omega64 : ℝ := (2 ^ 53 - 1) * 2 ^ 971
/-- Binary32 (without underflow). -/
abbrev Bin32 := Fl (FB 24) omega32
/-- Binary64 (without underflow). -/
abbrev Bin64 := Fl F64 omega64

namespace Fl
variable {F : Fp} {Ω u L : ℝ}

/-- A finite number of magnitude at most `K`. -/
def Bd (K : ℝ) (a : Fl F Ω) : Prop := ∃ x, a = fin x ∧ |x| ≤ K

theorem Bd.fin {x K : ℝ} (h : |x| ≤ K) : Bd K (Fl.fin x : Fl F Ω) := ⟨x, rfl, h⟩
theorem Bd.mono {K M : ℝ} {a : Fl F Ω} (h : Bd K a) (hKM : K ≤ M) : Bd M a := by
  obtain ⟨x, rfl, hx⟩ := h; exact ⟨x, rfl, hx.trans hKM⟩
theorem Bd.nonneg {K : ℝ} {a : Fl F Ω} (h : Bd K a) : 0 ≤ K := by
  obtain ⟨x, -, hx⟩ := h; exact (abs_nonneg x).trans hx

/-- A number of the arithmetic without overflow. -/
def emb (a : Rnd F) : Fl F Ω := fin a.val

section
variable (hF : StdModel F u L)
include hF

theorem rd_le (x : ℝ) : |F.rd x| ≤ 1.001 * |x| := by
  have h := hF.rd x
  have h1 := hF.u_small
  have h2 := abs_nonneg x
  calc |F.rd x| = |(F.rd x - x) + x| := by ring_nf
    _ ≤ u * |x| + |x| := (abs_add_le _ _).trans (by linarith)
    _ ≤ _ := by norm_num; nlinarith

theorem rd_ge {x : ℝ} (hx : 0 ≤ x) : 0.999 * x ≤ F.rd x := by
  have h := (abs_le.1 (hF.rd x)).1
  have h1 := hF.u_small
  rw [abs_of_nonneg hx] at h
  norm_num; nlinarith

theorem rd_zero' : F.rd 0 = 0 := by
  have := rd_le hF 0
  rw [abs_zero, mul_zero] at this
  exact abs_eq_zero.1 (le_antisymm this (abs_nonneg _))

variable {a b : Fl F Ω} {K M : ℝ}

theorem Bd.mul (h : Bd K a) (h' : Bd M b) (hΩ : 1.001 * (K * M) ≤ Ω) : Bd (1.001 * (K * M)) (a * b) := by
  obtain ⟨x, rfl, hx⟩ := h
  obtain ⟨y, rfl, hy⟩ := h'
  have : |F.rd (x * y)| ≤ 1.001 * (K * M) := by
    refine (rd_le hF _).trans ?_
    rw [abs_mul]
    have : |x| * |y| ≤ K * M := mul_le_mul hx hy (abs_nonneg _) ((abs_nonneg _).trans hx)
    norm_num; linarith
  exact ⟨_, mul_fin (this.trans hΩ), this⟩

theorem Bd.add (h : Bd K a) (h' : Bd M b) (hΩ : 1.001 * (K + M) ≤ Ω) : Bd (1.001 * (K + M)) (a + b) := by
  obtain ⟨x, rfl, hx⟩ := h
  obtain ⟨y, rfl, hy⟩ := h'
  have : |F.rd (x + y)| ≤ 1.001 * (K + M) := by
    refine (rd_le hF _).trans ?_
    have := abs_add_le x y
    norm_num; linarith
  exact ⟨_, add_fin (this.trans hΩ), this⟩

theorem Bd.sub (h : Bd K a) (h' : Bd M b) (hΩ : 1.001 * (K + M) ≤ Ω) : Bd (1.001 * (K + M)) (a - b) := by
  obtain ⟨x, rfl, hx⟩ := h
  obtain ⟨y, rfl, hy⟩ := h'
  have : |F.rd (x - y)| ≤ 1.001 * (K + M) := by
    refine (rd_le hF _).trans ?_
    have := abs_sub x y
    norm_num; linarith
  exact ⟨_, sub_fin (this.trans hΩ), this⟩

omit hF in
theorem Bd.neg (h : Bd K a) : Bd K (-a) := by
  obtain ⟨x, rfl, hx⟩ := h
  exact ⟨-x, rfl, by rwa [abs_neg]⟩

/-- Division by a number bounded away from zero. -/
theorem Bd.div (h : Bd K a) {y m : ℝ} (hm : 0 < m) (hy : m ≤ |y|) (hΩ : 1.001 * (K / m) ≤ Ω) :
    Bd (1.001 * (K / m)) (a / Fl.fin y) := by
  obtain ⟨x, rfl, hx⟩ := h
  have hy0 : y ≠ 0 := by rintro rfl; rw [abs_zero] at hy; linarith
  have : |F.rd (x / y)| ≤ 1.001 * (K / m) := by
    refine (rd_le hF _).trans ?_
    rw [abs_div]
    have : |x| / |y| ≤ K / m := div_le_div₀ ((abs_nonneg _).trans hx) hx hm hy
    norm_num; linarith
  exact ⟨_, div_fin hy0 (this.trans hΩ), this⟩

theorem lit_eq (hΩ : 1000 ≤ Ω) {n : ℕ} (hn : n ≤ 1000) : ((n : ℕ) : Fl F Ω) = Fl.fin (n : ℝ) := by
  have h := hF.lit n hn
  have : |F.rd n| ≤ Ω := by
    rw [h, Nat.abs_cast]
    have : (n : ℝ) ≤ 1000 := by exact_mod_cast hn
    linarith
  rw [lit_fin this, h]

theorem Bd.lit (hΩ : 1000 ≤ Ω) {n : ℕ} (hn : n ≤ 1000) : Bd (n : ℝ) ((n : ℕ) : Fl F Ω) := by
  rw [lit_eq hF hΩ hn]; exact .fin (by rw [Nat.abs_cast])

/-- A finite number over an infinity is zero. -/
theorem fin_div_pinf (hΩ : 0 ≤ Ω) (x : ℝ) : (Fl.fin x / Fl.pinf : Fl F Ω) = Fl.fin 0 :=
  ext (by
    show clip Ω (F.rd 0) = _
    rw [rd_zero' hF, clip_le (by rwa [abs_zero])]; rfl)

theorem zero_mul_bd (hΩ : 0 ≤ Ω) (h : Bd K a) : Fl.fin 0 * a = Fl.fin 0 := by
  obtain ⟨x, rfl, -⟩ := h
  have : |F.rd (0 * x)| ≤ Ω := by rw [zero_mul, rd_zero' hF, abs_zero]; exact hΩ
  rw [mul_fin this, zero_mul, rd_zero' hF]

/-- A finite number of magnitude between `k` and `K`. -/
def Bt (k K : ℝ) (a : Fl F Ω) : Prop := ∃ x, a = Fl.fin x ∧ k ≤ |x| ∧ |x| ≤ K

omit hF in
theorem Bt.fin {x : ℝ} : Bt |x| |x| (Fl.fin x : Fl F Ω) := ⟨x, rfl, le_rfl, le_rfl⟩

omit hF in
theorem Bt.mono {k K k' K' : ℝ} {a : Fl F Ω} (h : Bt k K a) (h1 : k' ≤ k) (h2 : K ≤ K') : Bt k' K' a := by
  obtain ⟨x, rfl, hx, hx'⟩ := h; exact ⟨x, rfl, h1.trans hx, hx'.trans h2⟩

theorem rd_abs_ge (x : ℝ) : 0.999 * |x| ≤ |F.rd x| := by
  have h := hF.rd x
  have h1 := hF.u_small
  have h2 := abs_nonneg x
  have h3 : |x| ≤ |F.rd x| + |F.rd x - x| := by
    calc |x| = |F.rd x - (F.rd x - x)| := by ring_nf
      _ ≤ _ := abs_sub _ _
  norm_num; nlinarith

theorem Bt.mul {k m : ℝ} (h : Bt k K a) (h' : Bt m M b) (hm : 0 ≤ m) (hΩ : 1.001 * (K * M) ≤ Ω) :
    Bt (0.999 * (k * m)) (1.001 * (K * M)) (a * b) := by
  obtain ⟨x, rfl, hx, hx'⟩ := h
  obtain ⟨y, rfl, hy, hy'⟩ := h'
  have h1 : |F.rd (x * y)| ≤ 1.001 * (K * M) := by
    refine (rd_le hF _).trans ?_
    rw [abs_mul]
    have : |x| * |y| ≤ K * M := mul_le_mul hx' hy' (abs_nonneg _) ((abs_nonneg _).trans hx')
    norm_num; linarith
  refine ⟨_, mul_fin (h1.trans hΩ), ?_, h1⟩
  refine le_trans ?_ (rd_abs_ge hF _)
  rw [abs_mul]
  have : k * m ≤ |x| * |y| := mul_le_mul hx hy hm (abs_nonneg _)
  norm_num; linarith

/-- A product that overflows. -/
theorem Bt.mul_inf {k m : ℝ} (h : Bt k K a) (h' : Bt m M b) (hm : 0 ≤ m) (hΩ : Ω < 0.999 * (k * m)) (hΩ0 : 0 ≤ Ω) :
    a * b = Fl.pinf ∨ a * b = Fl.ninf := by
  obtain ⟨x, rfl, hx, -⟩ := h
  obtain ⟨y, rfl, hy, -⟩ := h'
  have h1 : Ω < |F.rd (x * y)| := by
    refine lt_of_lt_of_le hΩ (le_trans ?_ (rd_abs_ge hF _))
    rw [abs_mul]
    have : k * m ≤ |x| * |y| := mul_le_mul hx hy hm (abs_nonneg _)
    norm_num; linarith
  have e : (Fl.fin x * Fl.fin y : Fl F Ω).v = XR.infOf (F.rd (x * y)) := clip_gt h1
  rcases lt_trichotomy (F.rd (x * y)) 0 with h | h | h
  · right; exact ext (by rw [e, XR.infOf_neg h]; rfl)
  · rw [h, abs_zero] at h1; linarith
  · left; exact ext (by rw [e, XR.infOf_pos h]; rfl)

/-- Powers overflow. -/
theorem pow_overflow {x : ℝ} (hx : 0 < x) (hΩ0 : 0 ≤ Ω) (n : ℕ) (hn : Ω < (0.999 * x) ^ (n + 2)) :
    (Fl.fin x : Fl F Ω) ^ (n + 2) = Fl.pinf := by
  have key : ∀ n : ℕ, (Fl.fin x : Fl F Ω) ^ (n + 2) = Fl.pinf ∨
      ∃ y, (Fl.fin x : Fl F Ω) ^ (n + 2) = Fl.fin y ∧ (0.999 * x) ^ (n + 2) ≤ y ∧ y ≤ Ω := by
    have prod : ∀ y : ℝ, ∀ k : ℕ, 0 < y → (0.999 * x) ^ (k + 1) ≤ y → (Fl.fin y * Fl.fin x : Fl F Ω) = Fl.pinf ∨
        ∃ z, (Fl.fin y * Fl.fin x : Fl F Ω) = Fl.fin z ∧ (0.999 * x) ^ (k + 2) ≤ z ∧ z ≤ Ω := by
      intro y k hy hyk
      have h1 := rd_ge hF (mul_pos hy hx).le
      have h2 : (0.999 * x) ^ (k + 2) ≤ F.rd (y * x) := by
        refine le_trans ?_ h1
        rw [pow_succ]
        calc (0.999 * x) ^ (k + 1) * (0.999 * x) ≤ y * (0.999 * x) := by gcongr
          _ = _ := by ring
      rcases lt_or_ge Ω (F.rd (y * x)) with h | h
      · exact Or.inl (mul_pinf_of h hΩ0)
      · right
        have h0 : 0 ≤ F.rd (y * x) := le_trans (by positivity) h2
        exact ⟨_, mul_fin (by rwa [abs_of_nonneg h0]), h2, h⟩
    intro n
    induction n with
    | zero => exact prod x 0 hx (by rw [zero_add, pow_one]; norm_num; linarith)
    | succ n ih =>
      rw [show n + 1 + 2 = (n + 1) + 2 from rfl, pow_succ_succ]
      rcases ih with h | ⟨y, h, hy, -⟩
      · left; rw [show n + 1 + 1 = n + 2 from rfl, h]; exact pinf_mul_pos hx
      · rw [show n + 1 + 1 = n + 2 from rfl, h]
        exact prod y (n + 1) (lt_of_lt_of_le (by positivity) hy) hy
  rcases key n with h | ⟨y, -, h1, h2⟩
  · exact h
  · linarith

end
end Fl
end Adx
