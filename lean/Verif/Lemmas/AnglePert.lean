import Mathlib.Analysis.SpecialFunctions.Complex.Arg
import Mathlib.Analysis.SpecialFunctions.Trigonometric.Bounds
import Mathlib.Analysis.SpecialFunctions.Trigonometric.Inverse

/-! # Perturbation of `arctan2` and `arccos` -/

namespace Adx

/-- Two planar vectors with angles `s`, `t` that differ by `d` up to full turns, `|d| ≤ π`. -/
theorem angle_pert {x y x' y' : ℝ} (hz : 0 < Real.sqrt (x ^ 2 + y ^ 2)) (k : ℤ)
    (h : |Complex.arg ⟨x', y'⟩ - Complex.arg ⟨x, y⟩ - 2 * Real.pi * k| ≤ Real.pi) :
    |Complex.arg ⟨x', y'⟩ - Complex.arg ⟨x, y⟩ - 2 * Real.pi * k| ≤
      Real.pi * ((|x' - x| + |y' - y|) / Real.sqrt (x ^ 2 + y ^ 2)) := by
  set w : ℂ := ⟨x', y'⟩ with hw
  set z : ℂ := ⟨x, y⟩ with hzd
  set d := Complex.arg w - Complex.arg z - 2 * Real.pi * k with hd
  set ρ := Real.sqrt (x ^ 2 + y ^ 2) with hρ
  have hπ := Real.pi_pos
  have nz : ‖z‖ = ρ := by rw [Complex.norm_def, Complex.normSq_apply, hρ]; congr 1; simp [z]; ring
  have c1 : ‖w‖ * Real.cos w.arg = x' := Complex.norm_mul_cos_arg w
  have s1 : ‖w‖ * Real.sin w.arg = y' := Complex.norm_mul_sin_arg w
  have c2 : ρ * Real.cos z.arg = x := by rw [← nz]; exact Complex.norm_mul_cos_arg z
  have s2 : ρ * Real.sin z.arg = y := by rw [← nz]; exact Complex.norm_mul_sin_arg z
  have hcd : Real.cos d = Real.cos w.arg * Real.cos z.arg + Real.sin w.arg * Real.sin z.arg := by
    rw [hd, show w.arg - z.arg - 2 * Real.pi * k = w.arg - z.arg - k * (2 * Real.pi) by ring, Real.cos_sub_int_mul_two_pi,
      Real.cos_sub]
  have hw0 := norm_nonneg w
  have key : (x' - x) ^ 2 + (y' - y) ^ 2 = ‖w‖ ^ 2 + ρ ^ 2 - 2 * ‖w‖ * ρ * Real.cos d := by
    rw [← c1, ← s1, ← c2, ← s2, hcd]
    nlinarith [Real.sin_sq_add_cos_sq w.arg, Real.sin_sq_add_cos_sq z.arg]
  have hsum : (x' - x) ^ 2 + (y' - y) ^ 2 ≤ (|x' - x| + |y' - y|) ^ 2 := by
    rw [← sq_abs (x' - x), ← sq_abs (y' - y)]
    nlinarith [mul_nonneg (abs_nonneg (x' - x)) (abs_nonneg (y' - y))]
  set δ := |x' - x| + |y' - y| with hδ
  have hδ0 : 0 ≤ δ := by positivity
  rcases le_or_gt (Real.cos d) 0 with hc | hc
  · have : ρ ≤ δ := by
      refine abs_le_of_sq_le_sq' ?_ hδ0 |>.2
      nlinarith [mul_nonneg (mul_nonneg hw0 hz.le) (neg_nonneg.2 hc)]
    calc |d| ≤ Real.pi * 1 := by linarith
      _ ≤ _ := by gcongr; rwa [one_le_div hz]
  · have hd2 : |d| ≤ Real.pi / 2 := by
      by_contra hcon
      rw [not_le] at hcon
      have := Real.cos_nonpos_of_pi_div_two_le_of_le hcon.le (by linarith)
      rw [Real.cos_abs] at this
      linarith
    have hs := Real.mul_le_sin (abs_nonneg d) hd2
    have hsq : Real.sin |d| ^ 2 = 1 - Real.cos d ^ 2 := by
      have := Real.sin_sq_add_cos_sq |d|
      rw [Real.cos_abs] at this; linarith
    have hs0 : 0 ≤ Real.sin |d| := Real.sin_nonneg_of_nonneg_of_le_pi (abs_nonneg _) h
    have h3 : ρ * Real.sin |d| ≤ δ := by
      refine abs_le_of_sq_le_sq' ?_ hδ0 |>.2
      rw [mul_pow, hsq]
      nlinarith [sq_nonneg (‖w‖ - ρ * Real.cos d)]
    have h4 : ρ * (2 / Real.pi * |d|) ≤ δ := (mul_le_mul_of_nonneg_left hs hz.le).trans h3
    have h5 : ρ * |d| ≤ Real.pi / 2 * δ := by
      have : ρ * (2 / Real.pi * |d|) = 2 / Real.pi * (ρ * |d|) := by ring
      rw [this] at h4
      calc ρ * |d| = Real.pi / 2 * (2 / Real.pi * (ρ * |d|)) := by field_simp
        _ ≤ _ := by gcongr
    rw [mul_div_assoc', le_div_iff₀ hz]
    nlinarith

/-- Vectors in the upper half plane. -/
theorem arg_pert_upper {x y x' y' : ℝ} (hz : 0 < Real.sqrt (x ^ 2 + y ^ 2)) (hy : 0 ≤ y) (hy' : 0 ≤ y') :
    |Complex.arg ⟨x', y'⟩ - Complex.arg ⟨x, y⟩| ≤ Real.pi * ((|x' - x| + |y' - y|) / Real.sqrt (x ^ 2 + y ^ 2)) := by
  have h1 := Complex.arg_nonneg_iff.2 (show 0 ≤ (⟨x, y⟩ : ℂ).im from hy)
  have h2 := Complex.arg_nonneg_iff.2 (show 0 ≤ (⟨x', y'⟩ : ℂ).im from hy')
  have h3 := Complex.arg_le_pi ⟨x, y⟩
  have h4 := Complex.arg_le_pi ⟨x', y'⟩
  have := angle_pert (x' := x') (y' := y') hz 0 (by rw [abs_le]; constructor <;> push_cast <;> linarith)
  simpa using this

/-- Any vectors, up to a full turn. -/
theorem arg_pert {x y x' y' : ℝ} (hz : 0 < Real.sqrt (x ^ 2 + y ^ 2)) :
    ∃ k : ℤ, |k| ≤ 1 ∧ |Complex.arg ⟨x', y'⟩ - Complex.arg ⟨x, y⟩ - 2 * Real.pi * k| ≤
      Real.pi * ((|x' - x| + |y' - y|) / Real.sqrt (x ^ 2 + y ^ 2)) := by
  have hπ := Real.pi_pos
  have h1 := Complex.neg_pi_lt_arg ⟨x, y⟩
  have h2 := Complex.neg_pi_lt_arg ⟨x', y'⟩
  have h3 := Complex.arg_le_pi ⟨x, y⟩
  have h4 := Complex.arg_le_pi ⟨x', y'⟩
  rcases lt_or_ge Real.pi (Complex.arg ⟨x', y'⟩ - Complex.arg ⟨x, y⟩) with h | h
  · exact ⟨1, by norm_num, angle_pert hz 1 (by rw [abs_le]; constructor <;> push_cast <;> linarith)⟩
  · rcases lt_or_ge (Complex.arg ⟨x', y'⟩ - Complex.arg ⟨x, y⟩) (-Real.pi) with h' | h'
    · exact ⟨-1, by norm_num, angle_pert hz (-1) (by rw [abs_le]; constructor <;> push_cast <;> linarith)⟩
    · exact ⟨0, by norm_num, angle_pert hz 0 (by rw [abs_le]; constructor <;> push_cast <;> linarith)⟩

/-- `arccos` is Hölder continuous with exponent 1/2, and Lipschitz away from the poles. -/
theorem arccos_pert (a b : ℝ) (hb : |b| ≤ 1) :
    |Real.arccos a - Real.arccos b| ≤ Real.pi * Real.sqrt (|a - b| / 2) ∧
    Real.sin (Real.arccos b) * |Real.arccos a - Real.arccos b| ≤ Real.pi * |a - b| := by
  have hπ := Real.pi_pos
  set α := Real.arccos a with hα
  set β := Real.arccos b with hβ
  have a0 := Real.arccos_nonneg a
  have a1 := Real.arccos_le_pi a
  have b0 := Real.arccos_nonneg b
  have b1 := Real.arccos_le_pi b
  have hcb : Real.cos β = b := Real.cos_arccos (abs_le.1 hb).1 (abs_le.1 hb).2
  have hab : |Real.cos α - Real.cos β| ≤ |a - b| := by
    rw [hcb]
    have hb' := abs_le.1 hb
    rcases lt_or_ge a (-1) with h | h
    · rw [hα, Real.arccos_of_le_neg_one h.le, Real.cos_pi, abs_of_nonpos (by linarith), abs_of_nonpos (by linarith)]
      linarith
    · rcases le_or_gt a 1 with h' | h'
      · rw [hα, Real.cos_arccos h h']
      · rw [hα, Real.arccos_of_one_le h'.le, Real.cos_zero, abs_of_nonneg (by linarith), abs_of_nonneg (by linarith)]
        linarith
  set d := |α - β| with hd
  have d0 : 0 ≤ d := abs_nonneg _
  have d1 : d ≤ Real.pi := abs_le.2 ⟨by linarith, by linarith⟩
  have e1 : |Real.cos α - Real.cos β| = 2 * Real.sin ((α + β) / 2) * Real.sin (d / 2) := by
    have s0 : 0 ≤ Real.sin ((α + β) / 2) := Real.sin_nonneg_of_nonneg_of_le_pi (by linarith) (by linarith)
    have s1 : 0 ≤ Real.sin (d / 2) := Real.sin_nonneg_of_nonneg_of_le_pi (by linarith) (by linarith)
    rw [Real.cos_sub_cos, abs_mul, abs_mul, abs_of_nonneg s0]
    have : |Real.sin ((α - β) / 2)| = Real.sin (d / 2) := by
      rcases abs_cases (α - β) with ⟨h, _⟩ | ⟨h, _⟩
      · rw [hd, h]; rw [hd, h] at s1; exact abs_of_nonneg s1
      · rw [hd, h]; rw [hd, h] at s1
        rw [show (α - β) / 2 = -(-(α - β) / 2) by ring, Real.sin_neg, abs_neg, abs_of_nonneg s1]
    rw [this]; norm_num
  have j : d / Real.pi ≤ Real.sin (d / 2) := by
    have := Real.mul_le_sin (x := d / 2) (by linarith) (by linarith)
    calc d / Real.pi = 2 / Real.pi * (d / 2) := by ring
      _ ≤ _ := this
  have j0 : 0 ≤ d / Real.pi := by positivity
  constructor
  · have hs : Real.sin (d / 2) ≤ Real.sin ((α + β) / 2) := by
      have hd1 : d ≤ α + β := abs_le.2 ⟨by linarith, by linarith⟩
      have hd2 : d ≤ 2 * Real.pi - (α + β) := abs_le.2 ⟨by linarith, by linarith⟩
      rcases le_total ((α + β) / 2) (Real.pi / 2) with h | h
      · exact Real.sin_le_sin_of_le_of_le_pi_div_two (by linarith) h (by linarith)
      · rw [← Real.sin_pi_sub ((α + β) / 2)]
        exact Real.sin_le_sin_of_le_of_le_pi_div_two (by linarith) (by linarith) (by linarith)
    have h1 : 2 * (d / Real.pi) ^ 2 ≤ |a - b| := by
      refine le_trans ?_ (e1 ▸ hab)
      nlinarith [mul_le_mul j (j.trans hs) j0 (j0.trans j)]
    have h2 : d / Real.pi ≤ Real.sqrt (|a - b| / 2) := Real.le_sqrt_of_sq_le (by linarith)
    rwa [div_le_iff₀ hπ, mul_comm] at h2
  · have hs : Real.sin β ≤ 2 * Real.sin ((α + β) / 2) := by
      have sa := Real.sin_nonneg_of_nonneg_of_le_pi a0 a1
      have h1 : Real.sin α + Real.sin β = 2 * Real.sin ((α + β) / 2) * Real.cos ((α - β) / 2) := by
        rw [Real.sin_add_sin]
      have s0 : 0 ≤ Real.sin ((α + β) / 2) := Real.sin_nonneg_of_nonneg_of_le_pi (by linarith) (by linarith)
      nlinarith [Real.cos_le_one ((α - β) / 2)]
    have sb := Real.sin_nonneg_of_nonneg_of_le_pi b0 b1
    have : Real.sin β * (d / Real.pi) ≤ |a - b| := by
      refine le_trans ?_ (e1 ▸ hab)
      exact mul_le_mul hs j j0 (sb.trans hs)
    rw [mul_div_assoc', div_le_iff₀ hπ] at this
    linarith

end Adx
