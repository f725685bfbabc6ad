import Verif.Spec.Deriv
import Mathlib.Analysis.SpecialFunctions.Trigonometric.DerivHyp
import Mathlib.Analysis.Calculus.Deriv.Abs
import Mathlib.Analysis.SpecialFunctions.Trigonometric.InverseDeriv
import Mathlib.Analysis.SpecialFunctions.Sqrt
import Mathlib.Analysis.SpecialFunctions.Log.Deriv
import Mathlib.Analysis.SpecialFunctions.Complex.LogDeriv
import Mathlib.Analysis.SpecialFunctions.Pow.Deriv

/-! # Each propagation rule is right where the primitive is smooth -/

namespace Adx
open Spec

namespace Spec

theorem Dual.dot_addTan (a b : Option ℝ) : (Dual.addTan a b).getD 0 = a.getD 0 + b.getD 0 := by
  cases a <;> cases b <;> simp [Dual.addTan]

theorem Dual.dot_map (a : Option ℝ) (f : ℝ → ℝ) (h : f 0 = 0) : (a.map f).getD 0 = f (a.getD 0) := by
  cases a <;> simp [h]

namespace Tracks
variable {g h : ℝ → ℝ} {s : ℝ} {a b : Dual ℝ}

theorem congr (ha : Tracks g s a) (hgh : h =ᶠ[nhds s] g) : Tracks h s a :=
  ⟨ha.val.trans hgh.self_of_nhds.symm, ha.deriv.congr_of_eventuallyEq hgh⟩

theorem nat (n : ℕ) : Tracks (fun _ => (n : ℝ)) s (n : Dual ℝ) := ⟨rfl, hasDerivAt_const s _⟩

theorem const (c : ℝ) : Tracks (fun _ => c) s ⟨c, none⟩ := ⟨rfl, hasDerivAt_const s _⟩

theorem pi : Tracks (fun _ => Real.pi) s (JFun.pi : Dual ℝ) := ⟨rfl, hasDerivAt_const s _⟩

theorem var (x : ℝ) : Tracks (fun s => s) x ⟨x, some 1⟩ := ⟨rfl, hasDerivAt_id x⟩

theorem add (ha : Tracks g s a) (hb : Tracks h s b) : Tracks (fun s => g s + h s) s (a + b) :=
  ⟨congrArg₂ (· + ·) ha.val hb.val, by
    have : Dual.dot (a + b) = Dual.dot a + Dual.dot b := Dual.dot_addTan _ _
    rw [this]; exact ha.deriv.add hb.deriv⟩

theorem neg (ha : Tracks g s a) : Tracks (fun s => -g s) s (-a) :=
  ⟨congrArg (- ·) ha.val, by
    have : Dual.dot (-a) = -Dual.dot a := Dual.dot_map _ _ neg_zero
    rw [this]; exact ha.deriv.neg⟩

theorem sub (ha : Tracks g s a) (hb : Tracks h s b) : Tracks (fun s => g s - h s) s (a - b) :=
  ⟨congrArg₂ (· - ·) ha.val hb.val, by
    have : Dual.dot (a - b) = Dual.dot a - Dual.dot b := by
      refine (Dual.dot_addTan _ _).trans ?_
      rw [Dual.dot_map _ _ neg_zero]; rfl
    rw [this]; exact ha.deriv.sub hb.deriv⟩

theorem mul (ha : Tracks g s a) (hb : Tracks h s b) : Tracks (fun s => g s * h s) s (a * b) :=
  ⟨congrArg₂ (· * ·) ha.val hb.val, by
    have : Dual.dot (a * b) = Dual.dot a * b.val + a.val * Dual.dot b := by
      refine (Dual.dot_addTan _ _).trans ?_
      rw [Dual.dot_map _ _ (by simp), Dual.dot_map _ _ (by simp)]; rfl
    rw [this, ha.val, hb.val]; exact ha.deriv.mul hb.deriv⟩

theorem div (ha : Tracks g s a) (hb : Tracks h s b) (h0 : h s ≠ 0) : Tracks (fun s => g s / h s) s (a / b) :=
  ⟨congrArg₂ (· / ·) ha.val hb.val, by
    have : Dual.dot (a / b) = Dual.dot a / b.val + -Dual.dot b * a.val * (1 / b.val ^ 2) := by
      refine (Dual.dot_addTan _ _).trans ?_
      rw [Dual.dot_map _ _ (by simp), Dual.dot_map _ _ (by simp)]
      simp [Dual.dot]
    rw [this, ha.val, hb.val]
    refine (ha.deriv.div hb.deriv h0).congr_deriv ?_
    field_simp; ring⟩

theorem pow (ha : Tracks g s a) (n : ℕ) : Tracks (fun s => g s ^ n) s (a ^ n) :=
  ⟨congrArg (· ^ n) ha.val, by
    have : Dual.dot (a ^ n) = n * a.val ^ (n - 1) * Dual.dot a := by
      refine (Dual.dot_map _ _ (by split_ifs <;> simp)).trans ?_
      split_ifs with h
      · simp [h]
      · simp only [Dual.dot]; ring
    rw [this, ha.val]
    exact ha.deriv.pow n⟩

theorem sqrt (ha : Tracks g s a) (h0 : 0 < g s) : Tracks (fun s => Real.sqrt (g s)) s (JFun.sqrt a) :=
  ⟨congrArg Real.sqrt ha.val, by
    have : Dual.dot (JFun.sqrt a) = Dual.dot a * (1 / 2 / Real.sqrt a.val) := by
      refine (Dual.dot_map _ _ (by simp)).trans ?_
      simp [Dual.dot]
    rw [this, ha.val]
    refine (ha.deriv.sqrt h0.ne').congr_deriv ?_
    field_simp⟩

theorem sin (ha : Tracks g s a) : Tracks (fun s => Real.sin (g s)) s (JFun.sin a) :=
  ⟨congrArg Real.sin ha.val, by
    have : Dual.dot (JFun.sin a) = Dual.dot a * Real.cos a.val := Dual.dot_map _ _ (by simp)
    rw [this, ha.val]
    exact ha.deriv.sin.congr_deriv (mul_comm _ _)⟩

theorem cos (ha : Tracks g s a) : Tracks (fun s => Real.cos (g s)) s (JFun.cos a) :=
  ⟨congrArg Real.cos ha.val, by
    have : Dual.dot (JFun.cos a) = -(Dual.dot a * Real.sin a.val) := Dual.dot_map _ _ (by simp)
    rw [this, ha.val]
    exact ha.deriv.cos.congr_deriv (by ring)⟩

theorem sinh (ha : Tracks g s a) : Tracks (fun s => Real.sinh (g s)) s (JFun.sinh a) :=
  ⟨congrArg Real.sinh ha.val, by
    have : Dual.dot (JFun.sinh a) = Dual.dot a * Real.cosh a.val := Dual.dot_map _ _ (by simp)
    rw [this, ha.val]
    exact ha.deriv.sinh.congr_deriv (mul_comm _ _)⟩

theorem cosh (ha : Tracks g s a) : Tracks (fun s => Real.cosh (g s)) s (JFun.cosh a) :=
  ⟨congrArg Real.cosh ha.val, by
    have : Dual.dot (JFun.cosh a) = Dual.dot a * Real.sinh a.val := Dual.dot_map _ _ (by simp)
    rw [this, ha.val]
    exact ha.deriv.cosh.congr_deriv (mul_comm _ _)⟩

theorem log (ha : Tracks g s a) (h0 : g s ≠ 0) : Tracks (fun s => Real.log (g s)) s (JFun.log a) :=
  ⟨congrArg Real.log ha.val, by
    have : Dual.dot (JFun.log a) = Dual.dot a / a.val := Dual.dot_map _ _ (by simp)
    rw [this, ha.val]
    exact ha.deriv.log h0⟩

theorem arccos (ha : Tracks g s a) (h0 : g s ≠ -1) (h1 : g s ≠ 1) :
    Tracks (fun s => Real.arccos (g s)) s (JFun.arccos a) :=
  ⟨congrArg Real.arccos ha.val, by
    have : Dual.dot (JFun.arccos a) = Dual.dot a * -(1 / Real.sqrt (1 - a.val ^ 2)) := by
      refine (Dual.dot_map _ _ (by simp)).trans ?_
      simp [Dual.dot]
    rw [this, ha.val]
    exact ((Real.hasDerivAt_arccos h0 h1).comp s ha.deriv).congr_deriv (mul_comm _ _)⟩

theorem abs (ha : Tracks g s a) (h0 : g s ≠ 0) : Tracks (fun s => |g s|) s (JFun.abs a) :=
  ⟨congrArg (|·|) ha.val, by
    have : Dual.dot (JFun.abs a) = Dual.dot a * Dual.sign a.val := Dual.dot_map _ _ (by simp)
    rw [this, ha.val]
    rcases lt_or_gt_of_ne h0 with h | h
    · have hs : Dual.sign (g s) = -1 := by simp [Dual.sign, h, h.not_gt]
      rw [hs]
      exact ((hasDerivAt_abs_neg h).comp s ha.deriv).congr_deriv (mul_comm _ _)
    · have hs : Dual.sign (g s) = 1 := by simp [Dual.sign, h]
      rw [hs]
      exact ((hasDerivAt_abs_pos h).comp s ha.deriv).congr_deriv (mul_comm _ _)⟩

theorem max_left (ha : Tracks g s a) (hb : Tracks h s b) (h0 : h s < g s) :
    Tracks (fun s => max (g s) (h s)) s (JFun.maximum a b) :=
  ⟨congrArg₂ max ha.val hb.val, by
    have : Dual.dot (JFun.maximum a b) = Dual.dot a * Dual.share a.val b.val + Dual.dot b * Dual.share b.val a.val := by
      refine (Dual.dot_addTan _ _).trans ?_
      rw [Dual.dot_map _ _ (by simp), Dual.dot_map _ _ (by simp)]; rfl
    rw [this, ha.val, hb.val]
    have h1 : Dual.share (g s) (h s) = 1 := by simp [Dual.share, h0]
    have h2 : Dual.share (h s) (g s) = 0 := by simp [Dual.share, h0, h0.not_gt]
    rw [h1, h2, mul_one, mul_zero, add_zero]
    refine ha.deriv.congr_of_eventuallyEq ?_
    filter_upwards [hb.deriv.continuousAt.eventually_lt ha.deriv.continuousAt h0] with x hx
    exact max_eq_left hx.le⟩

theorem max_right (ha : Tracks g s a) (hb : Tracks h s b) (h0 : g s < h s) :
    Tracks (fun s => max (g s) (h s)) s (JFun.maximum a b) :=
  ⟨congrArg₂ max ha.val hb.val, by
    have : Dual.dot (JFun.maximum a b) = Dual.dot a * Dual.share a.val b.val + Dual.dot b * Dual.share b.val a.val := by
      refine (Dual.dot_addTan _ _).trans ?_
      rw [Dual.dot_map _ _ (by simp), Dual.dot_map _ _ (by simp)]; rfl
    rw [this, ha.val, hb.val]
    have h1 : Dual.share (h s) (g s) = 1 := by simp [Dual.share, h0]
    have h2 : Dual.share (g s) (h s) = 0 := by simp [Dual.share, h0, h0.not_gt]
    rw [h1, h2, mul_one, mul_zero, zero_add]
    refine hb.deriv.congr_of_eventuallyEq ?_
    filter_upwards [ha.deriv.continuousAt.eventually_lt hb.deriv.continuousAt h0] with x hx
    exact max_eq_right hx.le⟩

/-- away from the jumps -/
theorem floor (ha : Tracks g s a) (h0 : g s ≠ ⌊g s⌋) : Tracks (fun s => (⌊g s⌋ : ℝ)) s (JFun.floor a) :=
  ⟨congrArg (fun x => (⌊x⌋ : ℝ)) ha.val, by
    have h1 : (⌊g s⌋ : ℝ) < g s := lt_of_le_of_ne (Int.floor_le _) h0.symm
    refine (hasDerivAt_const s (⌊g s⌋ : ℝ)).congr_of_eventuallyEq ?_
    filter_upwards [ha.deriv.continuousAt.eventually (Ioo_mem_nhds h1 (Int.lt_floor_add_one (g s)))] with x hx
    congr 1
    exact Int.floor_eq_iff.2 ⟨hx.1.le, hx.2⟩⟩

theorem onesLike (a : Dual ℝ) : Tracks (fun _ => 1) s (JFun.onesLike a) := ⟨rfl, hasDerivAt_const s _⟩

theorem cbrt (ha : Tracks g s a) (h0 : 0 < g s) : Tracks (fun s => realCbrt (g s)) s (JFun.cbrt a) :=
  ⟨congrArg realCbrt ha.val, by
    have : Dual.dot (JFun.cbrt a) = Dual.dot a * (1 / 3 * (1 / realCbrt a.val ^ 2)) := by
      refine (Dual.dot_map _ _ (by simp)).trans ?_
      simp [Dual.dot]
    rw [this, ha.val]
    have hev : (fun s => realCbrt (g s)) =ᶠ[nhds s] fun s => g s ^ (1 / 3 : ℝ) := by
      filter_upwards [ha.deriv.continuousAt.eventually (lt_mem_nhds h0)] with x hx
      exact if_pos hx.le
    refine ((ha.deriv.rpow_const (p := 1 / 3) (Or.inl h0.ne')).congr_of_eventuallyEq hev).congr_deriv ?_
    rw [realCbrt, if_pos h0.le, ← Real.rpow_natCast, ← Real.rpow_mul h0.le, one_div (g s ^ _), ← Real.rpow_neg h0.le]
    norm_num
    ring⟩

/-- off the cut (the closed negative `x` axis) -/
theorem arctan2 (ha : Tracks g s a) (hb : Tracks h s b) (h0 : 0 < h s ∨ g s ≠ 0) :
    Tracks (fun s => Complex.arg ⟨h s, g s⟩) s (JFun.arctan2 a b) := by
  refine ⟨congrArg₂ (fun y x => Complex.arg ⟨x, y⟩) ha.val hb.val, ?_⟩
  have : Dual.dot (JFun.arctan2 a b) = Dual.dot a * (b.val / (a.val ^ 2 + b.val ^ 2))
      + Dual.dot b * -a.val / (a.val ^ 2 + b.val ^ 2) := by
    refine (Dual.dot_addTan _ _).trans ?_
    rw [Dual.dot_map _ _ (by simp), Dual.dot_map _ _ (by simp)]; rfl
  rw [this, ha.val, hb.val]
  have hz : (⟨h s, g s⟩ : ℂ) ∈ Complex.slitPlane := h0
  have hc : HasDerivAt (fun s => (⟨h s, g s⟩ : ℂ)) (⟨Dual.dot b, Dual.dot a⟩ : ℂ) s := by
    have h1 : HasDerivAt (fun s => ((h s : ℝ) : ℂ) + (g s : ℝ) * Complex.I)
        ((Dual.dot b : ℝ) + (Dual.dot a : ℝ) * Complex.I) s :=
      hb.deriv.ofReal_comp.add (ha.deriv.ofReal_comp.mul_const _)
    have e1 : ∀ x y : ℝ, (⟨x, y⟩ : ℂ) = (x : ℂ) + (y : ℂ) * Complex.I := fun x y => by
      apply Complex.ext <;> simp
    simp only [e1]
    exact h1
  have h2 := hc.clog_real hz
  have h3 : HasDerivAt (fun s => (Complex.log ⟨h s, g s⟩).im)
      ((⟨Dual.dot b, Dual.dot a⟩ : ℂ) / ⟨h s, g s⟩).im s :=
    (Complex.imCLM.hasFDerivAt.comp_hasDerivAt s h2)
  simp only [Complex.log_im] at h3
  refine h3.congr_deriv ?_
  rw [Complex.div_im]
  simp only [Complex.normSq_mk]
  ring

end Tracks

end Spec
end Adx
