import Verif.Lemmas.Under
import Verif.Lemmas.FlTransfer

/-! # Away from underflow and overflow the arithmetic agrees with one that has neither -/

namespace Adx
open Spec

open Classical in
/-- The same arithmetic with exact results below the smallest normal number. -/
noncomputable def Fp.noU (F : Fp) (ν : ℝ) : Fp where
  rd x := if ν ≤ |x| then F.rd x else x
  sin x := if ν ≤ |Real.sin x| then F.sin x else Real.sin x
  cos x := if ν ≤ |Real.cos x| then F.cos x else Real.cos x
  sinh x := if ν ≤ |Real.sinh x| then F.sinh x else Real.sinh x
  cosh x := if ν ≤ |Real.cosh x| then F.cosh x else Real.cosh x
  log x := if ν ≤ |Real.log x| then F.log x else Real.log x
  cbrt x := if ν ≤ |realCbrt x| then F.cbrt x else realCbrt x
  arccos x := if ν ≤ |Real.arccos x| then F.arccos x else Real.arccos x
  arctan2 y x := if ν ≤ |Complex.arg ⟨x, y⟩| then F.arctan2 y x else Complex.arg ⟨x, y⟩

section
variable {F : Fp} {u L ν η : ℝ}

theorem noU_rd {x : ℝ} (h : ν ≤ |x|) : (F.noU ν).rd x = F.rd x := if_pos h

theorem Spec.UModel.std (hU : UModel F u L ν η) : StdModel (F.noU ν) u L := by
  have h1 := hU.one_le
  have hlt : u < 1 := lt_of_le_of_lt hU.u_small (by norm_num)
  have w : ∀ x y : ℝ, ∀ g f : ℝ → ℝ, LibFun F u L ν η g f →
      Within u L (@ite ℝ (ν ≤ |f x|) (Classical.propDecidable _) (g x) (f x)) (f x) := by
    intro x _ g f h
    split_ifs with hx
    · exact (h x).1 hx
    · exact ⟨0, by rw [abs_zero]; exact mul_nonneg (by linarith) (eta_pos hU.u_pos hlt).le, by simp⟩
  refine ⟨hU.u_pos, hU.u_small, h1, hU.le_hundred, fun x => ?_, fun n hn => ?_, fun x => w x 0 _ _ hU.sin,
    fun x => w x 0 _ _ hU.cos, fun x => w x 0 _ _ hU.sinh, fun x => w x 0 _ _ hU.cosh, fun x => w x 0 _ _ hU.log,
    fun x => w x 0 _ _ hU.cbrt, fun x => w x 0 _ _ hU.arccos, fun y x => w x 0 _ _ (hU.arctan2 y)⟩
  · show |(if ν ≤ |x| then F.rd x else x) - x| ≤ _
    split_ifs with h
    · exact hU.rd x h
    · rw [sub_self, abs_zero]; exact mul_nonneg hU.u_pos.le (abs_nonneg _)
  · show (if ν ≤ |(n : ℝ)| then F.rd n else (n : ℝ)) = n
    split_ifs
    · exact hU.lit n hn
    · rfl

theorem Spec.UModel.zero (hU : UModel F u L ν η) : F.rd 0 = 0 := by
  have := hU.neg 0; rw [neg_zero] at this; linarith

/-- The range of magnitudes `[1/M, M]` contains no underflow and no overflow. -/
structure Rg (Ω ν M : ℝ) : Prop where
  le : M ≤ Ω
  nu : ν * M ≤ 1
  one : 1 ≤ M

namespace Fl
variable {Ω M : ℝ}

/-- `a` is the number `b`: zero or of magnitude in `[1/X, X]`. -/
structure Mz (X : ℝ) (a : Fl F Ω) (b : Rnd (F.noU ν)) : Prop where
  eq : a = fin b.val
  le : |b.val| ≤ X
  ge : b.val = 0 ∨ 1 ≤ X * |b.val|
  rep : F.rd b.val = b.val

variable {a b : Fl F Ω} {x y : Rnd (F.noU ν)} {X Y Z : ℝ}

theorem Mz.nonneg (h : Mz X a x) : 0 ≤ X := (abs_nonneg _).trans h.le
theorem Mz.mono (h : Mz X a x) (hXY : X ≤ Y) : Mz Y a x :=
  ⟨h.eq, h.le.trans hXY, h.ge.imp_right fun h1 => h1.trans (mul_le_mul_of_nonneg_right hXY (abs_nonneg _)), h.rep⟩

/-- An input. -/
theorem Mz.inp {r : ℝ} (h : |r| ≤ X) (h' : r = 0 ∨ 1 ≤ X * |r|) (hr : F.rd r = r) :
    Mz X (fin r : Fl F Ω) (⟨r⟩ : Rnd (F.noU ν)) := ⟨rfl, h, h', hr⟩

section
variable (hU : UModel F u L ν η) (hM : Rg Ω ν M)
include hU

theorem Mz.neg (h : Mz X a x) : Mz X (-a) (-x) := by
  refine ⟨by rw [h.eq]; rfl, ?_, ?_, ?_⟩
  · show |-x.val| ≤ X
    rw [abs_neg]; exact h.le
  · show -x.val = 0 ∨ 1 ≤ X * |-x.val|
    rw [abs_neg, neg_eq_zero]; exact h.ge
  · show F.rd (-x.val) = -x.val
    rw [hU.neg, h.rep]

include hM

/-- Rounding a result that is zero or of magnitude in `[1/Z, Z]`. -/
theorem rd_mz {t : ℝ} (hle : |t| ≤ Z) (hge : t = 0 ∨ 1 ≤ Z * |t|) (hZ : 2 * Z ≤ M) :
    F.rd t = (F.noU ν).rd t ∧ |F.rd t| ≤ Ω ∧ |F.rd t| ≤ 2 * Z ∧ (F.rd t = 0 ∨ 1 ≤ 2 * Z * |F.rd t|) := by
  have hZ0 : 0 ≤ Z := (abs_nonneg _).trans hle
  have hΩ := hM.le
  rcases hge with rfl | hge
  · have h0 : (F.noU ν).rd 0 = 0 := by
      show (if ν ≤ |(0 : ℝ)| then F.rd 0 else 0) = 0
      rw [hU.zero, ite_self]
    rw [h0, hU.zero, abs_zero]
    refine ⟨rfl, by have := hM.one; linarith, by linarith, Or.inl rfl⟩
  · have hν : ν ≤ |t| := by
      have h1 := hM.nu
      have h2 := hU.nu_pos
      have hZp : 0 < Z := by
        rcases hZ0.lt_or_eq with h | h
        · exact h
        · rw [← h, zero_mul] at hge; linarith
      have : ν * Z ≤ Z * |t| := by nlinarith
      by_contra hc
      push Not at hc
      nlinarith
    have h3 := hU.rd t hν
    have h4 := hU.u_small
    have h5 : |F.rd t| ≤ 2 * |t| := by
      calc |F.rd t| = |(F.rd t - t) + t| := by ring_nf
        _ ≤ |F.rd t - t| + |t| := abs_add_le _ _
        _ ≤ _ := by nlinarith [abs_nonneg t]
    have h6 : |t| ≤ 2 * |F.rd t| := by
      have : |t| ≤ |F.rd t - t| + |F.rd t| := by
        calc |t| = |F.rd t - (F.rd t - t)| := by ring_nf
          _ ≤ |F.rd t| + |F.rd t - t| := abs_sub _ _
          _ = _ := add_comm _ _
      nlinarith [abs_nonneg t]
    refine ⟨(noU_rd hν).symm, by linarith, by linarith, Or.inr ?_⟩
    nlinarith

theorem Mz.mul (h : Mz X a x) (h' : Mz Y b y) (hZ : 2 * (X * Y) ≤ M) : Mz (2 * (X * Y)) (a * b) (x * y) := by
  have hX := h.nonneg
  have hY := h'.nonneg
  have hge : x.val * y.val = 0 ∨ 1 ≤ X * Y * |x.val * y.val| := by
    rcases h.ge with h1 | h1
    · left; rw [h1, zero_mul]
    rcases h'.ge with h2 | h2
    · left; rw [h2, mul_zero]
    right
    rw [abs_mul]
    calc (1 : ℝ) ≤ (X * |x.val|) * (Y * |y.val|) := one_le_mul_of_one_le_of_one_le h1 h2
      _ = _ := by ring
  obtain ⟨r1, r2, r3, r4⟩ := rd_mz hU hM (t := x.val * y.val) (Z := X * Y)
    (by rw [abs_mul]; exact mul_le_mul h.le h'.le (abs_nonneg _) hX) hge hZ
  have e : (x * y).val = F.rd (x.val * y.val) := r1.symm
  exact ⟨by rw [h.eq, h'.eq, mul_fin r2, e], by rw [e]; exact r3, by rw [e]; exact r4, by rw [e]; exact hU.idem _⟩

theorem Mz.div (h : Mz X a x) (h' : Mz Y b y) (hy : y.val ≠ 0) (hZ : 2 * (X * Y) ≤ M) : Mz (2 * (X * Y)) (a / b) (x / y) := by
  have hX := h.nonneg
  have hY := h'.nonneg
  have hy0 : 0 < |y.val| := abs_pos.2 hy
  have hy1 := h'.ge.resolve_left hy
  have hge : x.val / y.val = 0 ∨ 1 ≤ X * Y * |x.val / y.val| := by
    rcases h.ge with h1 | h1
    · left; rw [h1, zero_div]
    right
    rw [abs_div, mul_div_assoc', le_div_iff₀ hy0]
    have := h'.le
    nlinarith
  obtain ⟨r1, r2, r3, r4⟩ := rd_mz hU hM (t := x.val / y.val) (Z := X * Y)
    (by
      rw [abs_div, div_le_iff₀ hy0]
      have := h.le
      nlinarith) hge hZ
  have e : (x / y).val = F.rd (x.val / y.val) := r1.symm
  exact ⟨by rw [h.eq, h'.eq, div_fin hy r2, e], by rw [e]; exact r3, by rw [e]; exact r4, by rw [e]; exact hU.idem _⟩

theorem Mz.sqrt (h : Mz X a x) (h0 : 0 ≤ x.val) (hX : 1 ≤ X) (hZ : 2 * X ≤ M) : Mz (2 * X) (JFun.sqrt a) (JFun.sqrt x) := by
  have hs := Real.sqrt_nonneg x.val
  have hsq := Real.mul_self_sqrt h0
  have hge : Real.sqrt x.val = 0 ∨ 1 ≤ X * |Real.sqrt x.val| := by
    rcases h.ge with h1 | h1
    · left; rw [h1, Real.sqrt_zero]
    right
    rw [abs_of_nonneg h0] at h1
    rw [abs_of_nonneg hs]
    by_contra hc
    push Not at hc
    nlinarith
  obtain ⟨r1, r2, r3, r4⟩ := rd_mz hU hM (t := Real.sqrt x.val) (Z := X)
    (by
      rw [abs_of_nonneg hs]
      have := (le_abs_self _).trans h.le
      exact Real.sqrt_le_iff.2 ⟨by linarith, by nlinarith⟩) hge hZ
  have e : (JFun.sqrt x).val = F.rd (Real.sqrt x.val) := r1.symm
  exact ⟨by rw [h.eq, sqrt_fin h0 r2, e], by rw [e]; exact r3, by rw [e]; exact r4, by rw [e]; exact hU.idem _⟩

/-- A sum known to be zero or not too small. -/
theorem Mz.add_of (h : Mz X a x) (h' : Mz Y b y) (hle : |x.val + y.val| ≤ Z)
    (hge : x.val + y.val = 0 ∨ 1 ≤ Z * |x.val + y.val|) (hZ : 2 * Z ≤ M) : Mz (2 * Z) (a + b) (x + y) := by
  obtain ⟨r1, r2, r3, r4⟩ := rd_mz hU hM (t := x.val + y.val) hle hge hZ
  have e : (x + y).val = F.rd (x.val + y.val) := r1.symm
  exact ⟨by rw [h.eq, h'.eq, add_fin r2, e], by rw [e]; exact r3, by rw [e]; exact r4, by rw [e]; exact hU.idem _⟩

theorem Mz.sub_of (h : Mz X a x) (h' : Mz Y b y) (hle : |x.val - y.val| ≤ Z)
    (hge : x.val - y.val = 0 ∨ 1 ≤ Z * |x.val - y.val|) (hZ : 2 * Z ≤ M) : Mz (2 * Z) (a - b) (x - y) := by
  obtain ⟨r1, r2, r3, r4⟩ := rd_mz hU hM (t := x.val - y.val) hle hge hZ
  have e : (x - y).val = F.rd (x.val - y.val) := r1.symm
  exact ⟨by rw [h.eq, h'.eq, sub_fin r2, e], by rw [e]; exact r3, by rw [e]; exact r4, by rw [e]; exact hU.idem _⟩

/-- Sums of numbers of one sign. -/
theorem Mz.add_nonneg (h : Mz X a x) (h' : Mz X b y) (hx : 0 ≤ x.val) (hy : 0 ≤ y.val) (hZ : 4 * X ≤ M) :
    Mz (4 * X) (a + b) (x + y) := by
  have hX := h.nonneg
  have h1 := h.le
  have h2 := h'.le
  rw [abs_of_nonneg hx] at h1
  rw [abs_of_nonneg hy] at h2
  refine (h.add_of hU hM h' (Z := 2 * X) ?_ ?_ (by linarith)).mono (by linarith)
  · rw [abs_of_nonneg (by linarith)]; linarith
  · rw [abs_of_nonneg (by linarith : 0 ≤ x.val + y.val)]
    rcases h.ge with g1 | g1
    · rcases h'.ge with g2 | g2
      · left; rw [g1, g2, add_zero]
      · right; rw [abs_of_nonneg hy] at g2; nlinarith
    · right; rw [abs_of_nonneg hx] at g1; nlinarith

/-- Differences: two different numbers differ by at least a unit in the last place. -/
theorem Mz.sub (h : Mz X a x) (h' : Mz X b y) (hZ : 2 * (X / u) ≤ M) : Mz (2 * (X / u)) (a - b) (x - y) := by
  have hX := h.nonneg
  have hu := hU.u_pos
  have hus := hU.u_small
  have hXu : 2 * X ≤ X / u := by
    rw [le_div_iff₀ hu]; nlinarith
  refine h.sub_of hU hM h' ?_ ?_ hZ
  · have := abs_sub x.val y.val
    linarith [h.le, h'.le]
  · rcases eq_or_ne x.val y.val with e | e
    · left; rw [e, sub_self]
    right
    rcases h.ge with g1 | g1
    · rcases h'.ge with g2 | g2
      · exact absurd (g1.trans g2.symm) e
      · rw [g1, zero_sub, abs_neg]
        exact g2.trans (mul_le_mul_of_nonneg_right (by linarith) (abs_nonneg _))
    · rcases h'.ge with g2 | g2
      · rw [g2, sub_zero]
        exact g1.trans (mul_le_mul_of_nonneg_right (by linarith) (abs_nonneg _))
      · have hg := hU.gap _ _ h.rep h'.rep e
        have hm : 1 ≤ X * min |x.val| |y.val| := by
          rcases min_choice |x.val| |y.val| with hc | hc <;> rw [hc] <;> assumption
        rw [div_mul_eq_mul_div, le_div_iff₀ hu]
        nlinarith

theorem Mz.add (h : Mz X a x) (h' : Mz X b y) (hZ : 2 * (X / u) ≤ M) : Mz (2 * (X / u)) (a + b) (x + y) := by
  have t := h.sub hU hM (h'.neg hU) hZ
  have e1 : x - -y = x + y := by
    refine Rnd.ext ?_
    show (F.noU ν).rd (x.val - -y.val) = (F.noU ν).rd (x.val + y.val)
    rw [sub_neg_eq_add]
  have e2 : a - -b = a + b := by
    rw [h.eq, h'.eq]
    refine Fl.ext ?_
    show rnd F Ω (XR.fin x.val - XR.fin (-y.val)) = rnd F Ω (XR.fin x.val + XR.fin y.val)
    rw [XR.fin_sub, XR.fin_add, sub_neg_eq_add]
  rwa [e1, e2] at t

theorem Mz.lit {n : ℕ} (h0 : 1 ≤ n) (hn : n ≤ 1000) (hZ : (n : ℝ) ≤ M) :
    Mz (n : ℝ) ((n : ℕ) : Fl F Ω) ((n : ℕ) : Rnd (F.noU ν)) := by
  have h1 : (1 : ℝ) ≤ n := by exact_mod_cast h0
  have e : ((n : ℕ) : Rnd (F.noU ν)).val = n := hU.std.lit n hn
  refine ⟨?_, ?_, ?_, ?_⟩
  · rw [e, lit_fin (by rw [hU.lit n hn, Nat.abs_cast]; exact hZ.trans hM.le), hU.lit n hn]
  · rw [e, Nat.abs_cast]
  · right; rw [e, Nat.abs_cast]; nlinarith
  · rw [e]; exact hU.lit n hn

theorem Mz.pi (hZ : 8 ≤ M) : Mz 8 (JFun.pi : Fl F Ω) (JFun.pi : Rnd (F.noU ν)) := by
  have hp := Real.two_le_pi
  have hp' := Real.pi_le_four
  obtain ⟨r1, r2, r3, r4⟩ := rd_mz hU hM (t := Real.pi) (Z := 4) (by rw [abs_of_pos Real.pi_pos]; exact hp')
    (by right; rw [abs_of_pos Real.pi_pos]; linarith) (by linarith)
  have e : (JFun.pi : Rnd (F.noU ν)).val = F.rd Real.pi := r1.symm
  refine ⟨?_, by rw [e]; linarith, by rw [e]; rcases r4 with h | h; exacts [Or.inl h, Or.inr (by linarith)],
    by rw [e]; exact hU.idem _⟩
  rw [e]; exact Fl.ext (clip_le r2)

/-- A library function whose exact value is of magnitude in `[1/Z, Z]`. -/
theorem lib_mz {g f : ℝ → ℝ} (hl : LibFun F u L ν η g f) {t : ℝ} (hle : |f t| ≤ Z) (hge : 1 ≤ Z * |f t|) (hZ : 2 * Z ≤ M) :
    ν ≤ |f t| ∧ |g t| ≤ Ω ∧ |g t| ≤ 2 * Z ∧ 1 ≤ 2 * Z * |g t| ∧ F.rd (g t) = g t := by
  have hZ0 : 0 ≤ Z := (abs_nonneg _).trans hle
  have hν : ν ≤ |f t| := by
    have h1 := hM.nu
    have h2 := hU.nu_pos
    by_contra hc
    push Not at hc
    have : Z * |f t| ≤ Z * ν := mul_le_mul_of_nonneg_left hc.le hZ0
    nlinarith
  obtain ⟨θ, hθ, e⟩ := (hl t).1 hν
  have hu := hU.u_pos
  have hus := hU.u_small
  have hlog : -Real.log (1 - u) ≤ 1 / 999 := by
    have h1 := Real.add_one_le_exp (Real.log (1 - u)⁻¹)
    have h2 : Real.log (1 - u)⁻¹ = -Real.log (1 - u) := Real.log_inv _
    have h3 : (0 : ℝ) < (1 - u)⁻¹ := inv_pos.2 (by linarith)
    rw [Real.exp_log h3, h2] at h1
    have h4 : (1 - u)⁻¹ ≤ 1000 / 999 := by
      rw [inv_le_comm₀ (by linarith) (by norm_num)]; norm_num; linarith
    linarith
  have hθ1 : |θ| ≤ 1 / 2 := by
    have h5 := hU.one_le
    have h6 := hU.le_hundred
    refine hθ.trans ((mul_le_mul_of_nonneg_left hlog (by linarith)).trans ?_)
    linarith
  have hlo : 1 / 2 ≤ Real.exp θ := by
    have := Real.add_one_le_exp θ
    have := (abs_le.1 hθ1).1
    linarith
  have hhi : Real.exp θ ≤ 2 := by
    have h1 := Real.add_one_le_exp (-θ)
    have h2 := (abs_le.1 hθ1).2
    have h3 : Real.exp θ * Real.exp (-θ) = 1 := by rw [← Real.exp_add]; simp
    nlinarith [Real.exp_pos θ]
  have hg : |g t| = |f t| * Real.exp θ := by rw [e, abs_mul, abs_of_pos (Real.exp_pos θ)]
  have h0 := abs_nonneg (f t)
  refine ⟨hν, ?_, ?_, ?_, (hl t).2.2⟩
  · have := hM.le; rw [hg]; nlinarith
  · rw [hg]; nlinarith
  · rw [hg]; nlinarith [mul_nonneg hZ0 h0]

theorem Mz.cbrt (h : Mz X a x) (hx : x.val ≠ 0) (hX : 1 ≤ X) (hZ : 2 * X ≤ M) : Mz (2 * X) (JFun.cbrt a) (JFun.cbrt x) := by
  have h3 : |realCbrt x.val| ^ 3 = |x.val| := by rw [← abs_pow, realCbrt_pow_three]
  have h0 := abs_nonneg (realCbrt x.val)
  have hle : |realCbrt x.val| ≤ X := by
    by_contra hc
    push Not at hc
    have : X ^ 3 < |realCbrt x.val| ^ 3 := pow_lt_pow_left₀ hc (by linarith) (by norm_num)
    have := h.le
    nlinarith [mul_self_nonneg (X - 1), mul_self_nonneg (X + 1)]
  have hge : 1 ≤ X * |realCbrt x.val| := by
    by_contra hc
    push Not at hc
    have h1 := h.ge.resolve_left hx
    have h2 : |realCbrt x.val| ≤ 1 := by nlinarith
    have h4 : |realCbrt x.val| ^ 3 ≤ |realCbrt x.val| := by
      calc |realCbrt x.val| ^ 3 ≤ |realCbrt x.val| ^ 1 := pow_le_pow_of_le_one h0 h2 (by norm_num)
        _ = _ := pow_one _
    rw [h3] at h4
    nlinarith
  obtain ⟨r0, r1, r2, r3, r4⟩ := lib_mz hU hM hU.cbrt (t := x.val) hle hge hZ
  have e : (JFun.cbrt x).val = F.cbrt x.val := if_pos r0
  refine ⟨?_, by rw [e]; exact r2, by rw [e]; exact Or.inr r3, by rw [e]; exact r4⟩
  rw [h.eq, e]; exact Fl.ext (clip_le r1)

end
end Fl
end
end Adx
