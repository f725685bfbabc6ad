import Verif.Lemmas.FlBound
import Verif.Props.C67

/-! # Below overflow the arithmetic `Fl` agrees with `Rnd` -/

namespace Adx
open Spec

namespace Fl
variable {F : Fp} {Ω u L : ℝ}

/-- `a` is finite, equal to `b`, and of magnitude at most `K`. -/
structure Tr (K : ℝ) (a : Fl F Ω) (b : Rnd F) : Prop where
  eq : a = fin b.val
  le : |b.val| ≤ K

section
variable (hF : StdModel F u L) {a b : Fl F Ω} {x y : Rnd F} {K M : ℝ}

theorem Tr.mono (h : Tr K a x) (hKM : K ≤ M) : Tr M a x := ⟨h.eq, h.le.trans hKM⟩
theorem Tr.nonneg (h : Tr K a x) : 0 ≤ K := (abs_nonneg _).trans h.le
theorem Tr.fin {r : ℝ} (h : |r| ≤ K) : Tr K (Fl.fin r : Fl F Ω) ⟨r⟩ := ⟨rfl, h⟩
theorem Tr.fin' (h : |x.val| ≤ K) : Tr K (Fl.fin x.val : Fl F Ω) x := ⟨rfl, h⟩
theorem Tr.neg (h : Tr K a x) : Tr K (-a) (-x) := by
  refine ⟨by rw [h.eq]; rfl, ?_⟩
  show |-x.val| ≤ K
  rw [abs_neg]; exact h.le
theorem Tr.abs (h : Tr K a x) : Tr K (JFun.abs a) (JFun.abs x) := by
  refine ⟨by rw [h.eq]; rfl, ?_⟩
  show |(|x.val|)| ≤ K
  rw [abs_abs]; exact h.le
theorem Tr.lt (h : Tr K a x) (h' : Tr M b y) : JFun.lt a b = JFun.lt x y := by rw [h.eq, h'.eq]; rfl

/-- A sharper bound found otherwise. -/
theorem Tr.of_le (h : Tr K a x) (h' : |x.val| ≤ M) : Tr M a x := ⟨h.eq, h'⟩

include hF

theorem Tr.mul (h : Tr K a x) (h' : Tr M b y) (hΩ : 1.001 * (K * M) ≤ Ω) : Tr (1.001 * (K * M)) (a * b) (x * y) := by
  have : |F.rd (x.val * y.val)| ≤ 1.001 * (K * M) := by
    refine (rd_le hF _).trans ?_
    rw [abs_mul]
    have : |x.val| * |y.val| ≤ K * M := mul_le_mul h.le h'.le (abs_nonneg _) h.nonneg
    norm_num; linarith
  refine ⟨?_, this⟩
  rw [h.eq, h'.eq]; exact mul_fin (this.trans hΩ)

theorem Tr.add (h : Tr K a x) (h' : Tr M b y) (hΩ : 1.001 * (K + M) ≤ Ω) : Tr (1.001 * (K + M)) (a + b) (x + y) := by
  have : |F.rd (x.val + y.val)| ≤ 1.001 * (K + M) := by
    refine (rd_le hF _).trans ?_
    have := abs_add_le x.val y.val
    have := h.le
    have := h'.le
    norm_num; linarith
  refine ⟨?_, this⟩
  rw [h.eq, h'.eq]; exact add_fin (this.trans hΩ)

theorem Tr.sub (h : Tr K a x) (h' : Tr M b y) (hΩ : 1.001 * (K + M) ≤ Ω) : Tr (1.001 * (K + M)) (a - b) (x - y) := by
  have : |F.rd (x.val - y.val)| ≤ 1.001 * (K + M) := by
    refine (rd_le hF _).trans ?_
    have := abs_sub x.val y.val
    have := h.le
    have := h'.le
    norm_num; linarith
  refine ⟨?_, this⟩
  rw [h.eq, h'.eq]; exact sub_fin (this.trans hΩ)

theorem Tr.div (h : Tr K a x) (h' : Tr M b y) {m : ℝ} (hm : 0 < m) (hy : m ≤ |y.val|) (hΩ : 1.001 * (K / m) ≤ Ω) :
    Tr (1.001 * (K / m)) (a / b) (x / y) := by
  have hy0 : y.val ≠ 0 := by intro h; rw [h, abs_zero] at hy; linarith
  have : |F.rd (x.val / y.val)| ≤ 1.001 * (K / m) := by
    refine (rd_le hF _).trans ?_
    rw [abs_div]
    have : |x.val| / |y.val| ≤ K / m := div_le_div₀ h.nonneg h.le hm hy
    norm_num; linarith
  refine ⟨?_, this⟩
  rw [h.eq, h'.eq]; exact div_fin hy0 (this.trans hΩ)

theorem Tr.sqrt (h : Tr K a x) (h0 : 0 ≤ x.val) (hK : 1 ≤ K) (hΩ : 1.001 * K ≤ Ω) :
    Tr (1.001 * Real.sqrt K) (JFun.sqrt a) (JFun.sqrt x) := by
  have h1 : Real.sqrt x.val ≤ Real.sqrt K := Real.sqrt_le_sqrt ((le_abs_self _).trans h.le)
  have h2 : Real.sqrt K ≤ K := Real.sqrt_le_iff.2 ⟨by linarith, by nlinarith⟩
  have : |F.rd (Real.sqrt x.val)| ≤ 1.001 * Real.sqrt K := by
    refine (rd_le hF _).trans ?_
    rw [abs_of_nonneg (Real.sqrt_nonneg _)]
    norm_num; linarith
  refine ⟨?_, this⟩
  rw [h.eq]
  exact sqrt_fin h0 (this.trans (le_trans (mul_le_mul_of_nonneg_left h2 (by norm_num)) hΩ))

theorem Tr.lit (hΩ : 1000 ≤ Ω) {n : ℕ} (hn : n ≤ 1000) : Tr (n : ℝ) ((n : ℕ) : Fl F Ω) ((n : ℕ) : Rnd F) := by
  refine ⟨?_, ?_⟩
  · rw [lit_eq hF hΩ hn]; show _ = Fl.fin (F.rd n); rw [hF.lit n hn]
  · show |F.rd n| ≤ n; rw [hF.lit n hn, Nat.abs_cast]

/-- The tolerance of the solvers. -/
theorem tol_fin (hΩ : 1002000 ≤ Ω) : (defaultTol : Fl F Ω) = Fl.fin (defaultTol : Rnd F).val := by
  have h1 := rd_le hF (1000000 : ℕ)
  have h2 := rd_abs_ge hF (1000000 : ℕ)
  rw [Nat.abs_cast] at h1 h2
  have e2 : ((1000000 : ℕ) : Fl F Ω) = Fl.fin (F.rd (1000000 : ℕ)) := lit_fin (h1.trans (by norm_num; linarith))
  have t1 := Tr.lit (n := 1) hF (by linarith : (1000 : ℝ) ≤ Ω) (by norm_num)
  have t2 : Tr (1.001 * (1000000 : ℕ)) ((1000000 : ℕ) : Fl F Ω) ((1000000 : ℕ) : Rnd F) := ⟨e2, h1⟩
  exact (t1.div hF t2 (m := 1) one_pos (h2.trans' (by norm_num)) (by norm_num; linarith)).eq

end
end Fl

open Fl
variable {F : Fp} {Ω u L : ℝ}

/-- A finite vector, with and without overflow. -/
structure TrV (K : ℝ) (p : V3 (Fl F Ω)) (p' : V3 (Rnd F)) : Prop where
  x : Tr K p.x p'.x
  y : Tr K p.y p'.y
  z : Tr K p.z p'.z

section
variable (hF : StdModel F u L) {p q : V3 (Fl F Ω)} {p' q' : V3 (Rnd F)} {K M : ℝ}
include hF

theorem TrV.dot (h : TrV K p p') (h' : TrV M q q') (hΩ : 4 * (K * M) ≤ Ω) :
    Tr (3.1 * (K * M)) (V3.dot p q) (V3.dot p' q') := by
  have h0 : 0 ≤ K * M := mul_nonneg h.x.nonneg h'.x.nonneg
  have t := ((h.x.mul hF h'.x (by norm_num; linarith)).add hF (h.y.mul hF h'.y (by norm_num; linarith))
    (by norm_num; linarith)).add hF (h.z.mul hF h'.z (by norm_num; linarith)) (by norm_num; linarith)
  exact t.mono (by norm_num; linarith)

theorem dot_self_rnd (p' : V3 (Rnd F)) : 0 ≤ (V3.dot p' p').val := by
  have f : ∀ t : ℝ, 0 ≤ t → 0 ≤ F.rd t := fun t ht => le_trans (by positivity) (rd_ge hF ht)
  exact f _ (add_nonneg (f _ (add_nonneg (f _ (mul_self_nonneg _)) (f _ (mul_self_nonneg _)))) (f _ (mul_self_nonneg _)))

theorem TrV.norm (h : TrV K p p') (hK : 1 ≤ K) (hΩ : 4 * (K * K) ≤ Ω) : Tr (2 * K) (V3.norm p) (V3.norm p') := by
  have t := ((h.dot hF h hΩ).sqrt hF (dot_self_rnd hF p') (by norm_num; nlinarith) (by norm_num; nlinarith))
  refine t.mono ?_
  have : Real.sqrt (3.1 * (K * K)) ≤ 1.8 * K := Real.sqrt_le_iff.2 ⟨by positivity, by norm_num; nlinarith⟩
  norm_num at this ⊢; linarith

end
end Adx
