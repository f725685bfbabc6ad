import Verif.Spec.Rounding
import Verif.Lemmas.RealVec
import Mathlib.Analysis.Convex.SpecificFunctions.Basic
import Mathlib.Analysis.SpecialFunctions.Trigonometric.Bounds
import Mathlib.Analysis.SpecialFunctions.Trigonometric.DerivHyp

/-! # Propagation of rounding errors through the operations -/

namespace Adx
open Spec

variable {F : Fp} {u L k j : ℝ} {a b : Rnd F} {x y m n : ℝ}

/-- `-log (1 - u)`: the size of one rounding. -/
noncomputable def eta (u : ℝ) : ℝ := -Real.log (1 - u)

/-- `a` is `x` up to `k` rounding errors, relative to the magnitude `m ≥ |x|`. -/
structure Near (u k m a x : ℝ) : Prop where
  k0 : 0 ≤ k
  err : |a - x| ≤ (Real.exp (k * eta u) - 1) * m
  mag : |x| ≤ m

theorem eta_pos (h0 : 0 < u) (h1 : u < 1) : 0 < eta u :=
  neg_pos.2 (Real.log_neg (by linarith) (by linarith))

theorem exp_eta (h1 : u < 1) : Real.exp (eta u) = (1 - u)⁻¹ := by
  rw [eta, Real.exp_neg, Real.exp_log (by linarith)]

theorem one_add_le_exp_eta (h0 : 0 < u) (h1 : u < 1) : 1 + u ≤ Real.exp (eta u) := by
  rw [exp_eta h1, ← one_div, le_div_iff₀ (by linarith)]; nlinarith

/-- `(1 - u)^(-k) - 1 ≤ γ_k`. -/
theorem exp_sub_one_le_gam (h1 : u < 1) (hk : 1 ≤ k) (hku : k * u < 1) :
    Real.exp (k * eta u) - 1 ≤ gam u k := by
  have h2 : 1 - k * u ≤ Real.exp (-(k * eta u)) := by
    have := one_add_mul_self_le_rpow_one_add (s := -u) (by linarith) hk
    rw [Real.rpow_def_of_pos (by linarith)] at this
    calc 1 - k * u = 1 + k * -u := by ring
      _ ≤ _ := this
      _ = _ := by rw [eta]; congr 1; ring_nf
  have h3 : 0 < 1 - k * u := by linarith
  have h4 : Real.exp (k * eta u) ≤ 1 / (1 - k * u) := by
    rw [le_div_iff₀ h3]
    calc Real.exp (k * eta u) * (1 - k * u) ≤ Real.exp (k * eta u) * Real.exp (-(k * eta u)) := by gcongr
      _ = 1 := by rw [← Real.exp_add]; simp
  have : gam u k = 1 / (1 - k * u) - 1 := by unfold gam; field_simp; ring
  rw [this]; linarith

theorem abs_exp_sub_one_le {θ t : ℝ} (h : |θ| ≤ t) : |Real.exp θ - 1| ≤ Real.exp t - 1 := by
  obtain ⟨h1, h2⟩ := abs_le.1 h
  rw [abs_le]
  have h3 := Real.exp_le_exp.2 h2
  have h4 := Real.exp_le_exp.2 h1
  have h5 : 2 ≤ Real.exp t + Real.exp (-t) := by
    have h6 := Real.exp_pos t
    rw [Real.exp_neg]
    have : Real.exp t + (Real.exp t)⁻¹ - 2 = (Real.exp t - 1) ^ 2 / Real.exp t := by field_simp; ring
    have : 0 ≤ (Real.exp t - 1) ^ 2 / Real.exp t := by positivity
    linarith
  constructor <;> linarith

/-- A relative error of at most `u` is one rounding. -/
theorem within_of_rel {y x : ℝ} (hu0 : 0 < u) (hu : u < 1) (h : |y - x| ≤ u * |x|) : Within u 1 y x := by
  rcases eq_or_ne x 0 with rfl | hx
  · refine ⟨0, by rw [abs_zero, one_mul]; exact (eta_pos hu0 hu).le, ?_⟩
    have : y = 0 := by simpa using h
    simp [this]
  · have hq : |y / x - 1| ≤ u := by
      have e : y / x - 1 = (y - x) / x := by field_simp
      rw [e, abs_div, div_le_iff₀ (abs_pos.2 hx)]; exact h
    obtain ⟨q1, q2⟩ := abs_le.1 hq
    have hq0 : 0 < y / x := by linarith
    refine ⟨Real.log (y / x), ?_, by rw [Real.exp_log hq0]; field_simp⟩
    rw [one_mul, abs_le, neg_neg]
    constructor
    · exact Real.log_le_log (by linarith) (by linarith)
    · refine (Real.log_le_iff_le_exp hq0).2 ?_
      exact le_trans (by linarith) (one_add_le_exp_eta hu0 hu)

namespace Spec.StdModel
variable (hF : StdModel F u L)
include hF

theorem lt_one : u < 1 := lt_of_le_of_lt hF.u_small (by norm_num)
theorem eta0 : 0 < eta u := eta_pos hF.u_pos hF.lt_one

theorem within_rd (x : ℝ) : Within u 1 (F.rd x) x := within_of_rel hF.u_pos hF.lt_one (hF.rd x)

end Spec.StdModel

/-! ### Relative precision -/

namespace Spec.Within
variable (hF : StdModel F u L)

theorem k_nonneg (hu0 : 0 < u) (hu1 : u < 1) (h : Within u k x y) : 0 ≤ k := by
  obtain ⟨θ, h, -⟩ := h
  have := eta_pos hu0 hu1
  exact nonneg_of_mul_nonneg_left (le_trans (abs_nonneg _) h) this

theorem refl (u x : ℝ) : Within u 0 x x := ⟨0, by simp, by simp⟩

theorem neg (h : Within u k x y) : Within u k (-x) (-y) := by
  obtain ⟨θ, h, rfl⟩ := h
  exact ⟨θ, h, by ring⟩

theorem abs (h : Within u k x y) : Within u k |x| |y| := by
  obtain ⟨θ, h, rfl⟩ := h
  exact ⟨θ, h, by rw [abs_mul, Real.abs_exp]⟩

theorem trans {z : ℝ} (h : Within u k x y) (h' : Within u j y z) : Within u (k + j) x z := by
  obtain ⟨θ, h1, rfl⟩ := h
  obtain ⟨θ', h2, rfl⟩ := h'
  refine ⟨θ' + θ, ?_, by rw [Real.exp_add]; ring⟩
  have := abs_add_le θ' θ
  rw [add_mul]; linarith

theorem mul' {x' y' : ℝ} (h : Within u k x y) (h' : Within u j x' y') : Within u (k + j) (x * x') (y * y') := by
  obtain ⟨θ, h1, rfl⟩ := h
  obtain ⟨θ', h2, rfl⟩ := h'
  refine ⟨θ + θ', ?_, by rw [Real.exp_add]; ring⟩
  have := abs_add_le θ θ'
  rw [add_mul]; linarith

theorem inv' (h : Within u k x y) : Within u k x⁻¹ y⁻¹ := by
  obtain ⟨θ, h1, rfl⟩ := h
  exact ⟨-θ, by rwa [abs_neg], by rw [mul_inv, Real.exp_neg]⟩

theorem div' {x' y' : ℝ} (h : Within u k x y) (h' : Within u j x' y') : Within u (k + j) (x / x') (y / y') := by
  rw [div_eq_mul_inv, div_eq_mul_inv]; exact h.mul' h'.inv'

theorem sqrt' (h : Within u k x y) : Within u (k / 2) (Real.sqrt x) (Real.sqrt y) := by
  obtain ⟨θ, h1, rfl⟩ := h
  refine ⟨θ / 2, ?_, ?_⟩
  · rw [abs_div, abs_two]; linarith
  · rw [Real.sqrt_mul' _ (Real.exp_pos _).le, ← Real.exp_half]

theorem cbrt' (h : Within u k x y) : Within u (k / 3) (realCbrt x) (realCbrt y) := by
  obtain ⟨θ, h1, rfl⟩ := h
  refine ⟨θ / 3, ?_, ?_⟩
  · rw [abs_div, abs_of_pos (by norm_num : (0 : ℝ) < 3)]; linarith
  · have he : Real.exp θ ^ (1 / 3 : ℝ) = Real.exp (θ / 3) := by
      rw [← Real.exp_mul]; congr 1; ring
    have hp := Real.exp_pos θ
    unfold realCbrt
    rcases le_or_gt 0 y with hy | hy
    · rw [if_pos (by positivity), if_pos hy, Real.mul_rpow hy hp.le, he]
    · have : y * Real.exp θ < 0 := mul_neg_of_neg_of_pos hy hp
      rw [if_neg (not_le.2 this), if_neg (not_le.2 hy), ← neg_mul, Real.mul_rpow (by linarith) hp.le, he]; ring

theorem mono (hF : StdModel F u L) (h : Within u k x y) (hkj : k ≤ j) : Within u j x y := by
  obtain ⟨θ, h1, rfl⟩ := h
  refine ⟨θ, h1.trans ?_, rfl⟩
  have := hF.eta0
  rw [eta] at this
  gcongr

/-- Sums of numbers of one sign. -/
theorem add' {x' y' : ℝ} (h : Within u k x y) (h' : Within u k x' y') (hy : 0 ≤ y) (hy' : 0 ≤ y') :
    Within u k (x + x') (y + y') := by
  obtain ⟨θ, h1, rfl⟩ := h
  obtain ⟨θ', h2, rfl⟩ := h'
  rcases (add_nonneg hy hy').eq_or_lt with h0 | h0
  · have e1 : y = 0 := by linarith
    have e2 : y' = 0 := by linarith
    exact ⟨θ, h1, by rw [e1, e2]; ring⟩
  set t := k * -Real.log (1 - u) with ht
  obtain ⟨a1, a2⟩ := abs_le.1 h1
  obtain ⟨b1, b2⟩ := abs_le.1 h2
  have l1 : (y + y') * Real.exp (-t) ≤ y * Real.exp θ + y' * Real.exp θ' := by
    rw [add_mul]; gcongr
  have l2 : y * Real.exp θ + y' * Real.exp θ' ≤ (y + y') * Real.exp t := by
    rw [add_mul]; gcongr
  set s := y * Real.exp θ + y' * Real.exp θ' with hs
  have hspos : 0 < s := lt_of_lt_of_le (by positivity) l1
  refine ⟨Real.log (s / (y + y')), ?_, ?_⟩
  · rw [abs_le]
    constructor
    · rw [Real.le_log_iff_exp_le (by positivity), le_div_iff₀ h0]; linarith
    · rw [Real.log_le_iff_le_exp (by positivity), div_le_iff₀ h0]; linarith
  · rw [Real.exp_log (by positivity)]; field_simp

theorem near (hF : StdModel F u L) (h : Within u k x y) : Near u k |y| x y := by
  have hk := k_nonneg hF.u_pos hF.lt_one h
  obtain ⟨θ, h1, rfl⟩ := h
  refine ⟨hk, ?_, le_rfl⟩
  have : y * Real.exp θ - y = (Real.exp θ - 1) * y := by ring
  rw [this, abs_mul]
  gcongr
  exact abs_exp_sub_one_le h1

theorem pos_iff (h : Within u k x y) : 0 < x ↔ 0 < y := by
  obtain ⟨θ, h1, rfl⟩ := h
  exact ⟨fun h => pos_of_mul_pos_left h (Real.exp_pos θ).le, fun h => mul_pos h (Real.exp_pos θ)⟩

theorem ne_iff (h : Within u k x y) : x ≠ 0 ↔ y ≠ 0 := by
  obtain ⟨θ, h1, rfl⟩ := h
  simp

/-! With rounding. -/
section
include hF

theorem rnd (h : Within u k x y) : Within u (k + 1) (F.rd x) y := by
  have := (hF.within_rd x).trans h
  rwa [add_comm] at this

theorem lit (n : ℕ) (hn : n ≤ 1000) : Within u 0 (n : Rnd F).val (n : ℝ) := by
  rw [Rnd.val_natCast, hF.lit n hn]; exact refl _ _

theorem pi : Within u 1 (JFun.pi : Rnd F).val Real.pi := hF.within_rd _

theorem mul (h : Within u k a.val x) (h' : Within u j b.val y) : Within u (k + j + 1) (a * b).val (x * y) :=
  rnd hF (h.mul' h')

theorem div (h : Within u k a.val x) (h' : Within u j b.val y) : Within u (k + j + 1) (a / b).val (x / y) :=
  rnd hF (h.div' h')

theorem sq (h : Within u k a.val x) : Within u (2 * k + 1) (a ^ 2).val (x ^ 2) := by
  have := mul hF h h
  rw [← two_mul] at this
  rw [show x ^ 2 = x * x by ring]; exact this

theorem pow3 (h : Within u k a.val x) : Within u (3 * k + 2) (a ^ 3).val (x ^ 3) := by
  have := mul hF (mul hF h h) h
  rw [show k + k + 1 + k + 1 = 3 * k + 2 by ring] at this
  rw [show x ^ 3 = x * x * x by ring]; exact this

theorem pow4 (h : Within u k a.val x) : Within u (4 * k + 3) (a ^ 4).val (x ^ 4) := by
  have := mul hF (mul hF (mul hF h h) h) h
  rw [show k + k + 1 + k + 1 + k + 1 = 4 * k + 3 by ring] at this
  rw [show x ^ 4 = x * x * x * x by ring]; exact this

theorem pow5 (h : Within u k a.val x) : Within u (5 * k + 4) (a ^ 5).val (x ^ 5) := by
  have := mul hF (mul hF (mul hF (mul hF h h) h) h) h
  rw [show k + k + 1 + k + 1 + k + 1 + k + 1 = 5 * k + 4 by ring] at this
  rw [show x ^ 5 = x * x * x * x * x by ring]; exact this

theorem pow7 (h : Within u k a.val x) : Within u (7 * k + 6) (a ^ 7).val (x ^ 7) := by
  have := mul hF (mul hF (mul hF (mul hF (mul hF (mul hF h h) h) h) h) h) h
  rw [show k + k + 1 + k + 1 + k + 1 + k + 1 + k + 1 + k + 1 = 7 * k + 6 by ring] at this
  rw [show x ^ 7 = x * x * x * x * x * x * x by ring]; exact this

theorem sqrt (h : Within u k a.val x) : Within u (k / 2 + 1) (JFun.sqrt a).val (Real.sqrt x) := rnd hF h.sqrt'

theorem cbrt (h : Within u k a.val x) : Within u (k / 3 + L) (JFun.cbrt a).val (realCbrt x) := by
  have := (hF.cbrt a.val).trans h.cbrt'
  rwa [add_comm] at this

/-- Rounded sums of numbers of one sign. -/
theorem add (h : Within u k a.val x) (h' : Within u j b.val y) (hx : 0 ≤ x) (hy : 0 ≤ y) :
    Within u (max k j + 1) (a + b).val (x + y) :=
  rnd hF ((h.mono hF (le_max_left _ _)).add' (h'.mono hF (le_max_right _ _)) hx hy)

/-- A rounded difference of exact numbers. -/
theorem sub_exact (a b : Rnd F) : Within u 1 (a - b).val (a.val - b.val) := hF.within_rd _

theorem add_exact (a b : Rnd F) : Within u 1 (a + b).val (a.val + b.val) := hF.within_rd _

end

/-- The error bound. -/
theorem bound (hF : StdModel F u L) (h : Within u k x y) (hk : 1 ≤ k) (hku : k * u < 1) : |x - y| ≤ gam u k * |y| := by
  refine (h.near hF).err.trans ?_
  gcongr
  exact exp_sub_one_le_gam hF.lt_one hk hku

end Spec.Within

/-! ### Absolute error, relative to a magnitude -/

namespace Near
variable (hF : StdModel F u L)

theorem m_nonneg (h : Near u k m x y) : 0 ≤ m := (abs_nonneg _).trans h.mag

theorem abs_le (h : Near u k m x y) : |x| ≤ Real.exp (k * eta u) * m := by
  have : |x| ≤ |x - y| + |y| := by
    calc |x| = |x - y + y| := by ring_nf
      _ ≤ _ := abs_add_le _ _
  linarith [h.err, h.mag]

include hF in
theorem mono (h : Near u k m x y) (hkj : k ≤ j) (hmn : m ≤ n) : Near u j n x y := by
  have hj := h.k0.trans hkj
  have h0 := hF.eta0
  have hm := h.m_nonneg
  refine ⟨hj, h.err.trans ?_, h.mag.trans hmn⟩
  have h1 : 1 ≤ Real.exp (j * eta u) := Real.one_le_exp (by positivity)
  have h2 : Real.exp (k * eta u) ≤ Real.exp (j * eta u) := Real.exp_le_exp.2 (by gcongr)
  calc (Real.exp (k * eta u) - 1) * m ≤ (Real.exp (j * eta u) - 1) * m := by gcongr
    _ ≤ _ := by
      have : 0 ≤ Real.exp (j * eta u) - 1 := by linarith
      gcongr

include hF in
theorem rnd (h : Near u k m x y) : Near u (k + 1) m (F.rd x) y := by
  refine ⟨by linarith [h.k0], ?_, h.mag⟩
  have h1 := hF.rd x
  have h2 := h.abs_le
  have hm := h.m_nonneg
  have h3 : |F.rd x - y| ≤ |F.rd x - x| + |x - y| := by
    calc |F.rd x - y| = |(F.rd x - x) + (x - y)| := by ring_nf
      _ ≤ _ := abs_add_le _ _
  have h4 : Real.exp ((k + 1) * eta u) = Real.exp (k * eta u) * Real.exp (eta u) := by
    rw [← Real.exp_add]; congr 1; ring
  have h5 := one_add_le_exp_eta hF.u_pos hF.lt_one
  have h6 := Real.exp_pos (k * eta u)
  rw [h4]
  have h7 : u * |x| ≤ u * (Real.exp (k * eta u) * m) := by gcongr; exact hF.u_pos.le
  have h8 : Real.exp (k * eta u) * (1 + u) * m ≤ Real.exp (k * eta u) * Real.exp (eta u) * m := by gcongr
  nlinarith [h.err]

theorem neg (h : Near u k m x y) : Near u k m (-x) (-y) := by
  refine ⟨h.k0, ?_, by rw [abs_neg]; exact h.mag⟩
  rw [show -x - -y = -(x - y) by ring, abs_neg]; exact h.err

theorem add' {x' y' : ℝ} (h : Near u k m x y) (h' : Near u k n x' y') : Near u k (m + n) (x + x') (y + y') := by
  refine ⟨h.k0, ?_, (abs_add_le _ _).trans (add_le_add h.mag h'.mag)⟩
  rw [show x + x' - (y + y') = (x - y) + (x' - y') by ring, mul_add]
  exact (abs_add_le _ _).trans (add_le_add h.err h'.err)

include hF in
theorem exp_sub_nonneg (hk : 0 ≤ k) : 0 ≤ Real.exp (k * eta u) - 1 := by
  have := hF.eta0
  linarith [Real.one_le_exp (x := k * eta u) (by positivity)]

include hF in
theorem mul' {x' y' : ℝ} (h : Near u k m x y) (h' : Near u j n x' y') :
    Near u (k + j) (m * n) (x * x') (y * y') := by
  have hm := h.m_nonneg
  have hn := h'.m_nonneg
  have hk := exp_sub_nonneg hF h.k0
  refine ⟨add_nonneg h.k0 h'.k0, ?_, by rw [abs_mul]; exact mul_le_mul h.mag h'.mag (abs_nonneg _) hm⟩
  have e : x * x' - y * y' = (x - y) * x' + y * (x' - y') := by ring
  have h4 : Real.exp ((k + j) * eta u) = Real.exp (k * eta u) * Real.exp (j * eta u) := by
    rw [← Real.exp_add]; congr 1; ring
  rw [e]
  refine (abs_add_le _ _).trans ?_
  rw [abs_mul, abs_mul]
  calc |x - y| * |x'| + |y| * |x' - y'|
      ≤ (Real.exp (k * eta u) - 1) * m * (Real.exp (j * eta u) * n) + m * ((Real.exp (j * eta u) - 1) * n) := by
        gcongr
        · exact h.err
        · exact h'.abs_le
        · exact h.mag
        · exact h'.err
    _ = _ := by rw [h4]; ring

include hF

theorem add (h : Near u k m a.val x) (h' : Near u j n b.val y) :
    Near u (max k j + 1) (m + n) (a + b).val (x + y) :=
  rnd hF (add' (h.mono hF (le_max_left _ _) le_rfl)
    (h'.mono hF (le_max_right _ _) le_rfl))

theorem sub (h : Near u k m a.val x) (h' : Near u j n b.val y) :
    Near u (max k j + 1) (m + n) (a - b).val (x - y) := by
  have := rnd hF (add' (h.mono hF (le_max_left _ j) le_rfl)
    (h'.mono hF (le_max_right k _) le_rfl).neg)
  rw [← sub_eq_add_neg, ← sub_eq_add_neg] at this
  exact this

theorem mul (h : Near u k m a.val x) (h' : Near u j n b.val y) :
    Near u (k + j + 1) (m * n) (a * b).val (x * y) :=
  rnd hF (h.mul' hF h')

theorem div (h : Near u k m a.val x) (h' : Within u j b.val y) :
    Near u (k + j + 1) (m / |y|) (a / b).val (x / y) := by
  have := rnd hF (h.mul' hF (h'.inv'.near hF))
  rw [abs_inv, ← div_eq_mul_inv, ← div_eq_mul_inv, ← div_eq_mul_inv] at this
  exact this

/-- The error bound. -/
theorem bound (h : Near u k m x y) (hk : 1 ≤ k) (hku : k * u < 1) : |x - y| ≤ gam u k * m := by
  have hm := h.m_nonneg
  refine h.err.trans ?_
  gcongr
  exact exp_sub_one_le_gam hF.lt_one hk hku

/-- Computed sine of a perturbed argument. -/
theorem sin (h : Within u k a.val x) : Near u (k + L) |x| (JFun.sin a).val (Real.sin x) := by
  obtain ⟨θ, h1, h2⟩ := hF.sin a.val
  have hL : 0 ≤ L := le_trans zero_le_one hF.one_le
  have hn := h.near hF
  have hk := hn.k0
  have h3 : |Real.sin a.val - Real.sin x| ≤ |a.val - x| := Real.abs_sin_sub_sin_le _ _
  have h4 : |Real.sin a.val| ≤ Real.exp (k * eta u) * |x| := Real.abs_sin_le_abs.trans hn.abs_le
  refine ⟨add_nonneg hk hL, ?_, Real.abs_sin_le_abs⟩
  show |F.sin a.val - _| ≤ _
  rw [h2, show Real.sin a.val * Real.exp θ - Real.sin x =
    Real.sin a.val * (Real.exp θ - 1) + (Real.sin a.val - Real.sin x) by ring]
  refine (abs_add_le _ _).trans ?_
  rw [abs_mul]
  have h5 := abs_exp_sub_one_le h1
  have h6 : Real.exp ((k + L) * eta u) = Real.exp (k * eta u) * Real.exp (L * eta u) := by
    rw [← Real.exp_add]; congr 1; ring
  calc |Real.sin a.val| * |Real.exp θ - 1| + |Real.sin a.val - Real.sin x|
      ≤ Real.exp (k * eta u) * |x| * (Real.exp (L * eta u) - 1) + (Real.exp (k * eta u) - 1) * |x| := by
        gcongr
        · exact h5
        · exact h3.trans hn.err
    _ = _ := by rw [h6]; ring

/-- Computed cosine of a perturbed argument. -/
theorem cos (h : Within u k a.val x) : Near u (k + L) (1 + |x|) (JFun.cos a).val (Real.cos x) := by
  obtain ⟨θ, h1, h2⟩ := hF.cos a.val
  have hL : 0 ≤ L := le_trans zero_le_one hF.one_le
  have hn := h.near hF
  have hk := hn.k0
  have h3 : |Real.cos a.val - Real.cos x| ≤ |a.val - x| := Real.abs_cos_sub_cos_le _ _
  refine ⟨add_nonneg hk hL, ?_, (Real.abs_cos_le_one x).trans (by linarith [abs_nonneg x])⟩
  show |F.cos a.val - _| ≤ _
  rw [h2, show Real.cos a.val * Real.exp θ - Real.cos x =
    Real.cos a.val * (Real.exp θ - 1) + (Real.cos a.val - Real.cos x) by ring]
  refine (abs_add_le _ _).trans ?_
  rw [abs_mul]
  have h5 := abs_exp_sub_one_le h1
  have h0 := hF.eta0
  have e1 : Real.exp (L * eta u) ≤ Real.exp ((k + L) * eta u) := Real.exp_le_exp.2 (by nlinarith)
  have e2 : Real.exp (k * eta u) ≤ Real.exp ((k + L) * eta u) := Real.exp_le_exp.2 (by nlinarith)
  calc |Real.cos a.val| * |Real.exp θ - 1| + |Real.cos a.val - Real.cos x|
      ≤ 1 * (Real.exp (L * eta u) - 1) + (Real.exp (k * eta u) - 1) * |x| := by
        gcongr
        · exact Real.abs_cos_le_one _
        · exact h5
        · exact h3.trans hn.err
    _ ≤ (Real.exp ((k + L) * eta u) - 1) * 1 + (Real.exp ((k + L) * eta u) - 1) * |x| := by
        rw [one_mul, mul_one]; gcongr
    _ = _ := by ring

omit hF in
theorem exp_sub_one_le_two_mul {t : ℝ} (h0 : 0 ≤ t) (h1 : t ≤ 1) : Real.exp t - 1 ≤ 2 * t := by
  have := Real.abs_exp_sub_one_le (x := t) (by rwa [abs_of_nonneg h0])
  rw [abs_of_nonneg h0] at this
  exact (le_abs_self _).trans this

/-- Computed hyperbolic cosine of a perturbed argument. -/
theorem cosh (h : Within u k a.val x) (hk : k * eta u ≤ 1) :
    Within u (2 * k * |x| + L) (JFun.cosh a).val (Real.cosh x) := by
  have h0 := hF.eta0
  have hk0 := h.k_nonneg hF.u_pos hF.lt_one
  have hn := (h.near hF).err
  have hd : |a.val - x| ≤ 2 * k * |x| * eta u := by
    refine hn.trans ?_
    have := exp_sub_one_le_two_mul (t := k * eta u) (by positivity) hk
    calc (Real.exp (k * eta u) - 1) * |x| ≤ 2 * (k * eta u) * |x| := by gcongr
      _ = _ := by ring
  have key : ∀ p q : ℝ, Real.cosh p ≤ Real.cosh q * Real.exp |p - q| := by
    intro p q
    have e : Real.cosh p = (Real.exp q * Real.exp (p - q) + Real.exp (-q) * Real.exp (-(p - q))) / 2 := by
      rw [← Real.exp_add, ← Real.exp_add, Real.cosh_eq]; ring_nf
    have i1 : Real.exp (p - q) ≤ Real.exp |p - q| := Real.exp_le_exp.2 (le_abs_self _)
    have i2 : Real.exp (-(p - q)) ≤ Real.exp |p - q| := Real.exp_le_exp.2 (neg_le_abs _)
    rw [e, Real.cosh_eq]
    have j1 := mul_le_mul_of_nonneg_left i1 (Real.exp_pos q).le
    have j2 := mul_le_mul_of_nonneg_left i2 (Real.exp_pos (-q)).le
    linarith
  have h1 : Within u (2 * k * |x|) (Real.cosh a.val) (Real.cosh x) := by
    refine ⟨Real.log (Real.cosh a.val / Real.cosh x), ?_, ?_⟩
    · have c1 := Real.cosh_pos a.val
      have c2 := Real.cosh_pos x
      refine le_trans (b := |a.val - x|) ?_ hd
      rw [_root_.abs_le]
      constructor
      · rw [Real.le_log_iff_exp_le (by positivity), le_div_iff₀ c2, Real.exp_neg, inv_mul_le_iff₀ (Real.exp_pos _)]
        have := key x a.val
        rw [abs_sub_comm] at this; linarith
      · rw [Real.log_le_iff_le_exp (by positivity), div_le_iff₀ c2]
        have := key a.val x; linarith
    · have c1 := Real.cosh_pos a.val
      have c2 := Real.cosh_pos x
      rw [Real.exp_log (by positivity)]; field_simp
  have := (hF.cosh a.val).trans h1
  rwa [add_comm] at this

omit hF in
/-- `sinh q / sinh p ≤ (q / p) e^(q - p)` for `0 < p ≤ q`. -/
theorem sinh_ratio {p q : ℝ} (hp : 0 < p) (hpq : p ≤ q) : p * Real.sinh q ≤ q * Real.sinh p * Real.exp (q - p) := by
  have hq : 0 < q := lt_of_lt_of_le hp hpq
  have hl0 : 0 ≤ p / q := by positivity
  have hl1 : p / q ≤ 1 := (div_le_one hq).2 hpq
  have hc := convexOn_exp.2 (Set.mem_univ (-(2 * q))) (Set.mem_univ 0) hl0 (sub_nonneg.2 hl1) (by ring)
  simp only [smul_eq_mul, mul_zero, add_zero, Real.exp_zero, mul_one] at hc
  have e1 : p / q * -(2 * q) = -(2 * p) := by field_simp
  rw [e1] at hc
  have hc2 : q * Real.exp (-(2 * p)) ≤ p * Real.exp (-(2 * q)) + (q - p) := by
    have := mul_le_mul_of_nonneg_left hc hq.le
    have e2 : q * (p / q * Real.exp (-(2 * q)) + (1 - p / q)) = p * Real.exp (-(2 * q)) + (q - p) := by field_simp
    linarith
  have s1 : Real.sinh q = Real.exp q * (1 - Real.exp (-(2 * q))) / 2 := by
    rw [Real.sinh_eq, mul_sub, mul_one, ← Real.exp_add]; ring_nf
  have s2 : Real.sinh p = Real.exp p * (1 - Real.exp (-(2 * p))) / 2 := by
    rw [Real.sinh_eq, mul_sub, mul_one, ← Real.exp_add]; ring_nf
  have s3 : Real.exp q = Real.exp p * Real.exp (q - p) := by rw [← Real.exp_add]; ring_nf
  have e3 : q * Real.sinh p * Real.exp (q - p) = Real.exp q * (q * (1 - Real.exp (-(2 * p)))) / 2 := by rw [s2, s3]; ring
  rw [e3, s1]
  have := Real.exp_pos q
  nlinarith

/-- Computed hyperbolic sine of a perturbed argument. -/
theorem sinh (h : Within u k a.val x) (hk : k * eta u ≤ 1) :
    Within u (2 * k * |x| + k + L) (JFun.sinh a).val (Real.sinh x) := by
  have h0 := hF.eta0
  have hk0 := h.k_nonneg hF.u_pos hF.lt_one
  -- positive arguments
  have pos : ∀ {p q : ℝ}, 0 < p → Within u k q p → Within u (2 * k * p + k) (Real.sinh q) (Real.sinh p) := by
    intro p q hp hw
    have hq : 0 < q := hw.pos_iff.2 hp
    have s1 := Real.sinh_pos_iff.2 hp
    have s2 := Real.sinh_pos_iff.2 hq
    have hn := (hw.near hF).err
    rw [abs_of_pos hp] at hn
    have hd : |q - p| ≤ 2 * k * p * eta u := by
      refine hn.trans ?_
      have := exp_sub_one_le_two_mul (t := k * eta u) (by positivity) hk
      calc (Real.exp (k * eta u) - 1) * p ≤ 2 * (k * eta u) * p := by gcongr
        _ = _ := by ring
    obtain ⟨θ, h1, rfl⟩ := hw
    refine ⟨Real.log (Real.sinh (p * Real.exp θ) / Real.sinh p), ?_, by rw [Real.exp_log (by positivity)]; field_simp⟩
    rw [← eta] at h1 ⊢
    rw [add_mul]
    obtain ⟨t1, t2⟩ := _root_.abs_le.1 h1
    obtain ⟨d1, d2⟩ := _root_.abs_le.1 hd
    rcases le_total p (p * Real.exp θ) with hle | hle
    · have r := sinh_ratio hp hle
      rw [abs_of_nonneg (Real.log_nonneg ((one_le_div s1).2 (Real.sinh_le_sinh.2 hle))),
        Real.log_le_iff_le_exp (by positivity), div_le_iff₀ s1]
      have r2 : Real.sinh (p * Real.exp θ) ≤ Real.exp (θ + (p * Real.exp θ - p)) * Real.sinh p := by
        rw [Real.exp_add]
        refine le_of_mul_le_mul_left ?_ hp
        calc _ ≤ _ := r
          _ = _ := by ring
      exact r2.trans (mul_le_mul_of_nonneg_right (Real.exp_le_exp.2 (by linarith)) s1.le)
    · have r := sinh_ratio hq hle
      have r2 : Real.sinh p ≤ Real.exp (-θ + (p - p * Real.exp θ)) * Real.sinh (p * Real.exp θ) := by
        rw [Real.exp_add]
        refine le_of_mul_le_mul_left ?_ hq
        calc _ ≤ _ := r
          _ = p * Real.exp θ * (Real.exp (-θ) * Real.exp (p - p * Real.exp θ) * Real.sinh (p * Real.exp θ)) := by
            have : Real.exp θ * Real.exp (-θ) = 1 := by rw [← Real.exp_add]; simp
            linear_combination (-p * Real.exp (p - p * Real.exp θ) * Real.sinh (p * Real.exp θ)) * this
      rw [abs_of_nonpos (Real.log_nonpos (by positivity) ((div_le_one s1).2 (Real.sinh_le_sinh.2 hle))), ← Real.log_inv,
        inv_div, Real.log_le_iff_le_exp (by positivity), div_le_iff₀ s2]
      exact r2.trans (mul_le_mul_of_nonneg_right (Real.exp_le_exp.2 (by linarith)) s2.le)
  have h1 : Within u (2 * k * |x| + k) (Real.sinh a.val) (Real.sinh x) := by
    rcases lt_trichotomy x 0 with hx | hx | hx
    · have h2 := pos (p := -x) (q := -a.val) (by linarith) h.neg
      rw [abs_of_neg hx]
      have h3 := h2.neg
      rwa [Real.sinh_neg, Real.sinh_neg, neg_neg, neg_neg] at h3
    · obtain ⟨θ, -, h2⟩ := h
      rw [h2, hx, zero_mul]
      exact (Within.refl u _).mono hF (by positivity)
    · rw [abs_of_pos hx]; exact pos hx h
  have := (hF.sinh a.val).trans h1
  rwa [add_comm] at this

/-- A sum that does not cancel too much has relative precision; `c` is its condition number. -/
theorem within {c : ℝ} (h : Near u k m x y) (hk : 1 ≤ k) (hy : y ≠ 0) (hc : m ≤ c * |y|) (hs : c * k * u ≤ 1 / 5) :
    Within u (2 * c * k) x y := by
  have hu0 := hF.u_pos
  have hy' := abs_pos.2 hy
  have hk0 : 0 < k := by linarith
  have hm := h.m_nonneg
  have hc1 : 1 ≤ c := by
    have := h.mag.trans hc
    by_contra hcon
    push Not at hcon
    nlinarith
  have hku : k * u ≤ 1 / 5 := by
    have : 0 < k * u := by positivity
    nlinarith
  have hb := h.bound hF hk (by linarith)
  have hg : gam u k ≤ 5 / 4 * (k * u) := by
    unfold gam
    rw [div_le_iff₀ (by linarith)]
    have : 0 < k * u := by positivity
    nlinarith
  have hg0 : 0 ≤ gam u k := by unfold gam; apply div_nonneg <;> nlinarith
  have hd : |x / y - 1| ≤ 5 / 4 * (c * k * u) := by
    have e : x / y - 1 = (x - y) / y := by field_simp
    rw [e, abs_div, div_le_iff₀ hy']
    calc |x - y| ≤ gam u k * m := hb
      _ ≤ 5 / 4 * (k * u) * (c * |y|) := by gcongr
      _ = _ := by ring
  set d := 5 / 4 * (c * k * u) with hdd
  have hd4 : d ≤ 1 / 4 := by linarith
  have hd0 : 0 ≤ d := (abs_nonneg _).trans hd
  obtain ⟨d1, d2⟩ := _root_.abs_le.1 hd
  have hq : 0 < x / y := by linarith
  refine ⟨Real.log (x / y), ?_, by rw [Real.exp_log hq]; field_simp⟩
  have hη : u ≤ -Real.log (1 - u) := by
    have := Real.log_le_sub_one_of_pos (x := 1 - u) (by linarith [hF.lt_one])
    linarith
  have h8 : 8 / 5 * d ≤ 2 * c * k * -Real.log (1 - u) := by
    have : 0 ≤ c * k := by positivity
    have : 8 / 5 * d = 2 * (c * k) * u := by rw [hdd]; ring
    rw [this, show 2 * c * k = 2 * (c * k) by ring]
    gcongr
  refine le_trans ?_ h8
  rw [_root_.abs_le]
  constructor
  · have h9 := Real.one_sub_inv_le_log_of_pos hq
    have h10 : (x / y)⁻¹ ≤ 1 + 8 / 5 * d := by
      rw [inv_le_iff_one_le_mul₀ hq]
      nlinarith
    linarith
  · have h9 := Real.log_le_sub_one_of_pos hq
    linarith

end Near

end Adx
