import Verif.Lemmas.FlBound
import Verif.Props.C67
import Verif.Model.Gravity

/-!
# C69: overflow

In binary32 the powers of the radius in the gravity models overflow for positions given in metres, and the accelerations are
then exactly zero or NaN. The theorems hold for every arithmetic `F` satisfying the standard model, with a largest finite number
between `3e38` and `4e38` (binary32 has `3.4028e38`).
-/

namespace Adx
open Spec Fl

variable {F : Fp} {Ω u L : ℝ}

/-- A finite position. -/
def finVec (p : V3 ℝ) : V3 (Fl F Ω) := ⟨fin p.x, fin p.y, fin p.z⟩

/-- The same vector without overflow. -/
def rndVec (F : Fp) (p : V3 ℝ) : V3 (Rnd F) := ⟨⟨p.x⟩, ⟨p.y⟩, ⟨p.z⟩⟩

section
variable (hF : StdModel F u L)
include hF

/-- The computed norm of a finite vector. -/
theorem norm_fl {p : V3 ℝ} {A : ℝ} (hx : |p.x| ≤ A) (hy : |p.y| ≤ A) (hz : |p.z| ≤ A) (hΩ : 4 * A ^ 2 ≤ Ω) (hΩ1 : 10 ≤ Ω) :
    ∃ r, V3.norm (finVec p : V3 (Fl F Ω)) = fin r ∧ 0.99 * V3.norm p ≤ r ∧ r ≤ 1.01 * V3.norm p ∧ r ≤ 2 * A := by
  have hA : 0 ≤ A := (abs_nonneg _).trans hx
  have sqb : ∀ {t : ℝ}, |t| ≤ A → |F.rd (t * t)| ≤ 1.001 * A ^ 2 := by
    intro t ht
    refine (rd_le hF _).trans ?_
    rw [abs_mul]
    have : |t| * |t| ≤ A * A := mul_le_mul ht ht (abs_nonneg _) hA
    rw [show (1.001 : ℝ) = 1001 / 1000 by norm_num, sq]
    linarith
  have h1 : |F.rd (F.rd (p.x * p.x) + F.rd (p.y * p.y))| ≤ 2.1 * A ^ 2 := by
    refine (rd_le hF _).trans ?_
    have := abs_add_le (F.rd (p.x * p.x)) (F.rd (p.y * p.y))
    have h2 := sqb hx
    have h3 := sqb hy
    norm_num at h2 h3 ⊢; nlinarith
  have h2 : |F.rd (F.rd (F.rd (p.x * p.x) + F.rd (p.y * p.y)) + F.rd (p.z * p.z))| ≤ 3.2 * A ^ 2 := by
    refine (rd_le hF _).trans ?_
    have := abs_add_le (F.rd (F.rd (p.x * p.x) + F.rd (p.y * p.y))) (F.rd (p.z * p.z))
    have h3 := sqb hz
    norm_num at h1 h3 ⊢; nlinarith
  set s := F.rd (F.rd (F.rd (p.x * p.x) + F.rd (p.y * p.y)) + F.rd (p.z * p.z)) with hs
  have hn : (V3.norm (rndVec F p)).val = F.rd (Real.sqrt s) := rfl
  have hw := within_norm hF (rndVec F p)
  have hre : (rndVec F p).re = p := rfl
  rw [hre] at hw
  have hs0 : 0 ≤ s := by
    have hd : Within u 1 (F.rd (p.x * p.x)) (p.x * p.x) := hF.within_rd _
    have f : ∀ t : ℝ, 0 ≤ t → 0 ≤ F.rd t := fun t ht => le_trans (by positivity) (rd_ge hF ht)
    exact f _ (add_nonneg (f _ (add_nonneg (f _ (mul_self_nonneg _)) (f _ (mul_self_nonneg _)))) (f _ (mul_self_nonneg _)))
  have hb := hw.bound hF (by norm_num) (ku_lt hF (by norm_num))
  have hg : gam u (5 / 2) ≤ 0.01 := by
    have := hF.u_small
    have := hF.u_pos
    unfold gam
    rw [div_le_iff₀ (by linarith)]
    norm_num; linarith
  have hn0 : 0 ≤ V3.norm p := Real.sqrt_nonneg _
  have hb' : |F.rd (Real.sqrt s) - V3.norm p| ≤ 0.01 * V3.norm p := by
    rw [← hn]; rw [abs_of_nonneg hn0] at hb; exact hb.trans (mul_le_mul_of_nonneg_right hg hn0)
  have hsq : |F.rd (Real.sqrt s)| ≤ Ω := by
    refine (rd_le hF _).trans ?_
    rw [abs_of_nonneg (Real.sqrt_nonneg _)]
    have h3 := (abs_le.1 h2).2
    rcases le_total s 1 with h | h
    · have : Real.sqrt s ≤ 1 := Real.sqrt_le_one.2 h
      norm_num; linarith
    · have : Real.sqrt s ≤ s := Real.sqrt_le_iff.2 ⟨hs0, by nlinarith⟩
      norm_num at h3 ⊢; nlinarith
  have h2A : F.rd (Real.sqrt s) ≤ 2 * A := by
    have h3 := (abs_le.1 h2).2
    have h4 : Real.sqrt s ≤ 1.8 * A := by
      refine Real.sqrt_le_iff.2 ⟨by positivity, h3.trans ?_⟩
      norm_num; nlinarith
    refine (le_abs_self _).trans ((rd_le hF _).trans ?_)
    rw [abs_of_nonneg (Real.sqrt_nonneg _)]
    norm_num at h4 ⊢; linarith
  refine ⟨F.rd (Real.sqrt s), ?_, ?_, ?_, h2A⟩
  · have q := fun {t : ℝ} (ht : |t| ≤ A) => (sqb ht).trans (by norm_num; nlinarith : 1.001 * A ^ 2 ≤ Ω)
    have e : V3.norm (finVec p : V3 (Fl F Ω)) = JFun.sqrt (fin p.x * fin p.x + fin p.y * fin p.y + fin p.z * fin p.z) := rfl
    rw [e, mul_fin (q hx), mul_fin (q hy), mul_fin (q hz), add_fin (h1.trans (by norm_num; nlinarith)),
      add_fin (h2.trans (by norm_num; nlinarith)), sqrt_fin hs0 hsq]
  · have := (abs_le.1 hb').1; norm_num at this ⊢; linarith
  · have := (abs_le.1 hb').2; norm_num at this ⊢; linarith


section
variable (h1 : 3e38 ≤ Ω) (h2 : Ω ≤ 4e38)
include h1 h2

/-- C69, point mass: beyond `7.5e12` (50 astronomical units in metres) the computed gravity is exactly zero. -/
theorem C69_point_mass_zero {t : Fl F Ω} {p : V3 ℝ} {rest : List (Fl F Ω)} {args : Args (Fl F Ω)} {mu : ℝ}
    (hx : |p.x| ≤ 1e18) (hy : |p.y| ≤ 1e18) (hz : |p.z| ≤ 1e18) (hr : 7.5e12 ≤ V3.norm p)
    (hmu : args "mu" = some (fin mu)) :
    point_mass_grav t ⟨finVec p, rest⟩ args = .ok ⟨fin 0, fin 0, fin 0⟩ := by
  obtain ⟨r, e, l1, -, -⟩ := norm_fl hF hx hy hz (by norm_num at h1 ⊢; linarith) (by norm_num at h1 ⊢; linarith) (Ω := Ω)
  have hΩ : 0 ≤ Ω := by norm_num at h1; linarith
  have hr0 : 7.4e12 ≤ r := by norm_num at l1 hr ⊢; linarith
  have ep : (fin r : Fl F Ω) ^ 3 = pinf := pow_overflow hF (by norm_num at hr0; linarith) hΩ 1 (by
    calc Ω ≤ 4e38 := h2
      _ < (0.999 * 7.4e12) ^ 3 := by norm_num
      _ ≤ _ := by gcongr)
  have z : ∀ t : ℝ, (-fin 0 : Fl F Ω) * fin t = fin 0 := fun t => by
    rw [neg_fin, neg_zero]; exact zero_mul_bd hF hΩ (.fin le_rfl)
  simp only [point_mass_grav, Args.get, hmu, bind, Except.bind, pure, Except.pure, e, ep, fin_div_pinf hF hΩ]
  simp only [finVec, z]


omit hF in
set_option hygiene false in
/-- closes the numerical side conditions below -/
local macro "bnd" : tactic => `(tactic| (norm_num at h1 ⊢; linarith))

/-- C69, `J2`: beyond `5.4e7` (54 000 km in metres) the computed acceleration is exactly zero. -/
theorem C69_j2_zero {t : Fl F Ω} {p : V3 ℝ} {rest : List (Fl F Ω)} {args : Args (Fl F Ω)} {mu J2 R : ℝ}
    (hx : |p.x| ≤ 1e18) (hy : |p.y| ≤ 1e18) (hz : |p.z| ≤ 1e18) (hr : 5.4e7 ≤ V3.norm p)
    (hmu : args "mu" = some (fin mu)) (hJ : args "J2" = some (fin J2)) (hR : args "R_eq" = some (fin R))
    (m1 : |mu| ≤ 1e38) (m2 : |mu| * |J2| ≤ 1e38) (m3 : |R| * |R| ≤ 1e38) (m4 : |mu| * |J2| * (|R| * |R|) ≤ 1e38) :
    j2_acc t ⟨finVec p, rest⟩ args = .ok ⟨fin 0, fin 0, fin 0⟩ := by
  obtain ⟨r, e, l1, -, -⟩ := norm_fl hF hx hy hz (by bnd) (by bnd) (Ω := Ω)
  have hΩ : 0 ≤ Ω := by bnd
  have hΩ3 : 1000 ≤ Ω := by bnd
  have hr0 : 5.3e7 ≤ r := by norm_num at l1 hr ⊢; linarith
  have hrp : 0 < r := by norm_num at hr0; linarith
  have ep : (fin r : Fl F Ω) ^ 5 = pinf := pow_overflow hF hrp hΩ 3 (by
    calc Ω ≤ 4e38 := h2
      _ < (0.999 * 5.3e7) ^ 5 := by norm_num
      _ ≤ _ := by gcongr)
  have bc : Bd 1.6 (-(ℓ 3 / ℓ 2 : Fl F Ω)) := by
    have := (Bd.lit hF hΩ3 (n := 3) (by norm_num)).div hF (y := (2 : ℕ)) (m := 2) (by norm_num) (by norm_num) (by bnd)
    rw [← lit_eq hF hΩ3 (by norm_num)] at this
    exact (this.mono (by norm_num)).neg
  have b1 := bc.mul hF (b := fin mu) (.fin le_rfl) (by norm_num at h1 m1 ⊢; linarith)
  have b2 := b1.mul hF (b := fin J2) (.fin le_rfl) (by norm_num at h1 m2 ⊢; linarith)
  have b3 := (Bd.fin (x := R) le_rfl).mul hF (b := fin R) (.fin le_rfl) (Ω := Ω) (by norm_num at h1 m3 ⊢; linarith)
  have b4 := b2.mul hF b3 (by norm_num at h1 m4 ⊢; linarith)
  obtain ⟨w, hw, -⟩ := b4
  have ew : -(ℓ 3 / ℓ 2 : Fl F Ω) * fin mu * fin J2 * fin R ^ 2 = fin w := hw
  have q1 : Bd 2e10 (fin p.z / fin r : Fl F Ω) :=
    ((Bd.fin hz).div hF (m := 5.3e7) (by norm_num) (by rwa [abs_of_pos hrp]) (by bnd)).mono (by norm_num)
  have q2 : Bd 5e20 ((fin p.z / fin r : Fl F Ω) ^ 2) := (q1.mul hF q1 (by bnd)).mono (by norm_num)
  have q3 : Bd 3e21 (ℓ 5 * (fin p.z / fin r : Fl F Ω) ^ 2) :=
    ((Bd.lit hF hΩ3 (n := 5) (by norm_num)).mul hF q2 (by bnd)).mono (by norm_num)
  have q4 := (Bd.lit hF hΩ3 (n := 1) (by norm_num)).sub hF q3 (by bnd)
  have q5 := (Bd.lit hF hΩ3 (n := 3) (by norm_num)).sub hF q3 (by bnd)
  have z : ∀ t : ℝ, (fin 0 : Fl F Ω) * fin t = fin 0 := fun t => zero_mul_bd hF hΩ (.fin le_rfl)
  simp only [j2_acc, Args.get, hmu, hJ, hR, bind, Except.bind, pure, Except.pure, e, ep, ew, fin_div_pinf hF hΩ]
  simp only [finVec, z]
  rw [zero_mul_bd hF hΩ q4, zero_mul_bd hF hΩ q5]

/-- C69, `J3`: at every distance above `1e6` (1000 km in metres) the computed acceleration is exactly zero. -/
theorem C69_j3_zero {t : Fl F Ω} {p : V3 ℝ} {rest : List (Fl F Ω)} {args : Args (Fl F Ω)} {mu J3 R : ℝ}
    (hx : |p.x| ≤ 1e12) (hy : |p.y| ≤ 1e12) (hz : |p.z| ≤ 1e12) (hr : 1e6 ≤ V3.norm p)
    (hmu : args "mu" = some (fin mu)) (hJ : args "J3" = some (fin J3)) (hR : args "R_eq" = some (fin R))
    (m1 : |mu| ≤ 1e38) (m2 : |mu| * |J3| ≤ 1e38) (m3 : |R| * |R| ≤ 1e38) (m3' : |R| * |R| * |R| ≤ 1e38)
    (m4 : |mu| * |J3| * (|R| * |R| * |R|) ≤ 1e38) :
    j3_acc t ⟨finVec p, rest⟩ args = .ok ⟨fin 0, fin 0, fin 0⟩ := by
  obtain ⟨r, e, l1, -, l2⟩ := norm_fl hF hx hy hz (by bnd) (by bnd) (Ω := Ω)
  have hΩ : 0 ≤ Ω := by bnd
  have hΩ3 : 1000 ≤ Ω := by bnd
  have hr0 : 9.9e5 ≤ r := by norm_num at l1 hr ⊢; linarith
  have hrp : 0 < r := by norm_num at hr0; linarith
  have ep : (fin r : Fl F Ω) ^ 7 = pinf := pow_overflow hF hrp hΩ 5 (by
    calc Ω ≤ 4e38 := h2
      _ < (0.999 * 9.9e5) ^ 7 := by norm_num
      _ ≤ _ := by gcongr)
  have bc : Bd 2.6 (-(ℓ 5 / ℓ 2 : Fl F Ω)) := by
    have := (Bd.lit hF hΩ3 (n := 5) (by norm_num)).div hF (y := (2 : ℕ)) (m := 2) (by norm_num) (by norm_num) (by bnd)
    rw [← lit_eq hF hΩ3 (by norm_num)] at this
    exact (this.mono (by norm_num)).neg
  have b1 := bc.mul hF (b := fin mu) (.fin le_rfl) (by norm_num at h1 m1 ⊢; linarith)
  have b2 := b1.mul hF (b := fin J3) (.fin le_rfl) (by norm_num at h1 m2 ⊢; linarith)
  have b3 := ((Bd.fin (x := R) le_rfl).mul hF (b := fin R) (.fin le_rfl) (Ω := Ω) (by norm_num at h1 m3 ⊢; linarith)).mul hF
    (b := fin R) (.fin le_rfl) (by norm_num at h1 m3' ⊢; linarith)
  have b4 := b2.mul hF b3 (by norm_num at h1 m4 ⊢; linarith)
  obtain ⟨w, hw, -⟩ := b4
  have ew : -(ℓ 5 / ℓ 2 : Fl F Ω) * fin mu * fin J3 * fin R ^ 3 = fin w := hw
  have hr2 : r * r ≤ 4e24 := by norm_num at l2 ⊢; nlinarith
  have hr2' : 9.8e11 ≤ r * r := by norm_num at hr0 ⊢; nlinarith
  have ey : (fin r : Fl F Ω) ^ 2 = fin (F.rd (r * r)) := mul_fin (by
    refine (rd_le hF _).trans ?_
    rw [abs_of_pos (mul_pos hrp hrp)]
    norm_num at hr2 h1 ⊢; linarith)
  have hy1 := rd_ge hF (mul_pos hrp hrp).le
  have hy2 := rd_le hF (r * r)
  have hyb : 9.7e11 ≤ F.rd (r * r) := by norm_num at hy1 hr2' ⊢; linarith
  have by2 : Bd 5e24 (fin (F.rd (r * r)) : Fl F Ω) := .fin (by
    refine hy2.trans ?_
    rw [abs_of_pos (mul_pos hrp hrp)]
    norm_num at hr2 ⊢; linarith)
  have bz : Bd 1e12 (fin p.z : Fl F Ω) := .fin hz
  have z2 : Bd 1.1e24 ((fin p.z : Fl F Ω) ^ 2) := (bz.mul hF bz (by bnd)).mono (by norm_num)
  have z3 : Bd 1.2e36 ((fin p.z : Fl F Ω) ^ 3) := (z2.mul hF bz (by bnd)).mono (by norm_num)
  have q1 : Bd 1.3e24 ((fin p.z : Fl F Ω) ^ 3 / fin (F.rd (r * r))) :=
    (z3.div hF (m := 9.7e11) (by norm_num) (hyb.trans (le_abs_self _)) (by bnd)).mono (by norm_num)
  have q2 : Bd 1e25 (ℓ 7 * ((fin p.z : Fl F Ω) ^ 3 / fin (F.rd (r * r)))) :=
    ((Bd.lit hF hΩ3 (n := 7) (by norm_num)).mul hF q1 (by bnd)).mono (by norm_num)
  have q3 : Bd 4e12 (ℓ 3 * (fin p.z : Fl F Ω)) :=
    ((Bd.lit hF hΩ3 (n := 3) (by norm_num)).mul hF bz (by bnd)).mono (by norm_num)
  have q4 := q3.sub hF q2 (by bnd)
  have q5 : Bd 7e24 (ℓ 6 * (fin p.z : Fl F Ω) ^ 2) :=
    ((Bd.lit hF hΩ3 (n := 6) (by norm_num)).mul hF z2 (by bnd)).mono (by norm_num)
  have q6 : Bd 2e37 (ℓ 7 * ((fin p.z : Fl F Ω) ^ 3 / fin (F.rd (r * r))) * fin p.z) := (q2.mul hF bz (by bnd)).mono (by norm_num)
  have q7 : Bd 1 (ℓ 3 / ℓ 5 : Fl F Ω) := by
    have := (Bd.lit hF hΩ3 (n := 3) (by norm_num)).div hF (y := (5 : ℕ)) (m := 5) (by norm_num) (by norm_num) (by bnd)
    rw [← lit_eq hF hΩ3 (by norm_num)] at this
    exact this.mono (by norm_num)
  have q8 : Bd 6e24 ((ℓ 3 / ℓ 5 : Fl F Ω) * fin (F.rd (r * r))) := (q7.mul hF by2 (by bnd)).mono (by norm_num)
  have q9 : Bd 3e37 (ℓ 6 * (fin p.z : Fl F Ω) ^ 2 - ℓ 7 * ((fin p.z : Fl F Ω) ^ 3 / fin (F.rd (r * r))) * fin p.z) :=
    (q5.sub hF q6 (by bnd)).mono (by norm_num)
  have q10 := q9.sub hF q8 (by bnd)
  have z : ∀ t : ℝ, (fin 0 : Fl F Ω) * fin t = fin 0 := fun t => zero_mul_bd hF hΩ (.fin le_rfl)
  simp only [j3_acc, Args.get, hmu, hJ, hR, bind, Except.bind, pure, Except.pure, e, ep, ew, fin_div_pinf hF hΩ]
  simp only [finVec, z, ey]
  rw [zero_mul_bd hF hΩ q4, zero_mul_bd hF hΩ q10]

/-- C69, `J4`: at every distance above `1e6` the computed acceleration is exactly zero. -/
theorem C69_j4_zero {t : Fl F Ω} {p : V3 ℝ} {rest : List (Fl F Ω)} {args : Args (Fl F Ω)} {mu J4 R : ℝ}
    (hx : |p.x| ≤ 1e12) (hy : |p.y| ≤ 1e12) (hz : |p.z| ≤ 1e12) (hr : 1e6 ≤ V3.norm p)
    (hmu : args "mu" = some (fin mu)) (hJ : args "J4" = some (fin J4)) (hR : args "R_eq" = some (fin R))
    (m1 : |mu| ≤ 1e38) (m2 : |mu| * |J4| ≤ 1e38) (m3 : |R| * |R| ≤ 1e38) (m3' : |R| * |R| * |R| ≤ 1e38)
    (m3'' : |R| * |R| * |R| * |R| ≤ 1e38) (m4 : |mu| * |J4| * (|R| * |R| * |R| * |R|) ≤ 1e38) :
    j4_acc t ⟨finVec p, rest⟩ args = .ok ⟨fin 0, fin 0, fin 0⟩ := by
  obtain ⟨r, e, l1, -, l2⟩ := norm_fl hF hx hy hz (by bnd) (by bnd) (Ω := Ω)
  have hΩ : 0 ≤ Ω := by bnd
  have hΩ3 : 1000 ≤ Ω := by bnd
  have hr0 : 9.9e5 ≤ r := by norm_num at l1 hr ⊢; linarith
  have hrp : 0 < r := by norm_num at hr0; linarith
  have ep : (fin r : Fl F Ω) ^ 7 = pinf := pow_overflow hF hrp hΩ 5 (by
    calc Ω ≤ 4e38 := h2
      _ < (0.999 * 9.9e5) ^ 7 := by norm_num
      _ ≤ _ := by gcongr)
  have bc : Bd 1.9 (ℓ 15 / ℓ 8 : Fl F Ω) := by
    have := (Bd.lit hF hΩ3 (n := 15) (by norm_num)).div hF (y := (8 : ℕ)) (m := 8) (by norm_num) (by norm_num) (by bnd)
    rw [← lit_eq hF hΩ3 (by norm_num)] at this
    exact this.mono (by norm_num)
  have b1 := bc.mul hF (b := fin mu) (.fin le_rfl) (by norm_num at h1 m1 ⊢; linarith)
  have b2 := b1.mul hF (b := fin J4) (.fin le_rfl) (by norm_num at h1 m2 ⊢; linarith)
  have b3 := (((Bd.fin (x := R) le_rfl).mul hF (b := fin R) (.fin le_rfl) (Ω := Ω) (by norm_num at h1 m3 ⊢; linarith)).mul hF
    (b := fin R) (.fin le_rfl) (by norm_num at h1 m3' ⊢; linarith)).mul hF
    (b := fin R) (.fin le_rfl) (by norm_num at h1 m3'' ⊢; linarith)
  have b4 := b2.mul hF b3 (by norm_num at h1 m4 ⊢; linarith)
  obtain ⟨w, hw, -⟩ := b4
  have ew : (ℓ 15 / ℓ 8 : Fl F Ω) * fin mu * fin J4 * fin R ^ 4 = fin w := hw
  have q1 : Bd 1.1e6 (fin p.z / fin r : Fl F Ω) :=
    ((Bd.fin hz).div hF (m := 9.9e5) (by norm_num) (by rwa [abs_of_pos hrp]) (by bnd)).mono (by norm_num)
  have q2 : Bd 1.3e12 ((fin p.z / fin r : Fl F Ω) ^ 2) := (q1.mul hF q1 (by bnd)).mono (by norm_num)
  have q3 : Bd 2e13 (ℓ 14 * (fin p.z / fin r : Fl F Ω) ^ 2) :=
    ((Bd.lit hF hΩ3 (n := 14) (by norm_num)).mul hF q2 (by bnd)).mono (by norm_num)
  have q4 : Bd 3e13 (ℓ 1 - ℓ 14 * (fin p.z / fin r : Fl F Ω) ^ 2) :=
    ((Bd.lit hF hΩ3 (n := 1) (by norm_num)).sub hF q3 (by bnd)).mono (by norm_num)
  have q5 : Bd 2e24 (((fin p.z / fin r : Fl F Ω) ^ 2) ^ 2) := (q2.mul hF q2 (by bnd)).mono (by norm_num)
  have q6 : Bd 5e25 (ℓ 21 * ((fin p.z / fin r : Fl F Ω) ^ 2) ^ 2) :=
    ((Bd.lit hF hΩ3 (n := 21) (by norm_num)).mul hF q5 (by bnd)).mono (by norm_num)
  have q7 := q4.add hF q6 (by bnd)
  have q8 : Bd 1e14 (ℓ 70 * (fin p.z / fin r : Fl F Ω) ^ 2) :=
    ((Bd.lit hF hΩ3 (n := 70) (by norm_num)).mul hF q2 (by bnd)).mono (by norm_num)
  have q9 : Bd 1e14 (ℓ 70 * (fin p.z / fin r : Fl F Ω) ^ 2 / ℓ 3) := by
    have := q8.div hF (y := (3 : ℕ)) (m := 3) (by norm_num) (by norm_num) (by bnd)
    rw [← lit_eq hF hΩ3 (by norm_num)] at this
    exact this.mono (by norm_num)
  have q10 : Bd 2e14 (ℓ 5 - ℓ 70 * (fin p.z / fin r : Fl F Ω) ^ 2 / ℓ 3) :=
    ((Bd.lit hF hΩ3 (n := 5) (by norm_num)).sub hF q9 (by bnd)).mono (by norm_num)
  have q11 := q10.add hF q6 (by bnd)
  have z : ∀ t : ℝ, (fin 0 : Fl F Ω) * fin t = fin 0 := fun t => zero_mul_bd hF hΩ (.fin le_rfl)
  simp only [j4_acc, Args.get, hmu, hJ, hR, bind, Except.bind, pure, Except.pure, e, ep, ew, fin_div_pinf hF hΩ]
  simp only [finVec, z]
  rw [zero_mul_bd hF hΩ q7, zero_mul_bd hF hΩ q11]

/-- C69, `J4` again: when `mu J4 R⁴` overflows as well (Jupiter, in metres) the computed acceleration is NaN. -/
theorem C69_j4_nan {t : Fl F Ω} {p : V3 ℝ} {rest : List (Fl F Ω)} {args : Args (Fl F Ω)} {mu J4 R : ℝ}
    (hx : |p.x| ≤ 1e12) (hy : |p.y| ≤ 1e12) (hz : |p.z| ≤ 1e12) (hr : 1e6 ≤ V3.norm p)
    (hmu : args "mu" = some (fin mu)) (hJ : args "J4" = some (fin J4)) (hR : args "R_eq" = some (fin R))
    (m1 : |mu| ≤ 1e38) (m2 : |mu| * |J4| ≤ 1e38) (m3 : |R| * |R| ≤ 1e38) (m3' : |R| * |R| * |R| ≤ 1e38)
    (m3'' : |R| * |R| * |R| * |R| ≤ 1e38) (m4 : 4e38 ≤ |mu| * |J4| * (|R| * |R| * |R| * |R|)) :
    j4_acc t ⟨finVec p, rest⟩ args = .ok ⟨nan, nan, nan⟩ := by
  obtain ⟨r, e, l1, -, l2⟩ := norm_fl hF hx hy hz (by bnd) (by bnd) (Ω := Ω)
  have hΩ : 0 ≤ Ω := by bnd
  have hΩ3 : 1000 ≤ Ω := by bnd
  have hr0 : 9.9e5 ≤ r := by norm_num at l1 hr ⊢; linarith
  have hrp : 0 < r := by norm_num at hr0; linarith
  have ep : (fin r : Fl F Ω) ^ 7 = pinf := pow_overflow hF hrp hΩ 5 (by
    calc Ω ≤ 4e38 := h2
      _ < (0.999 * 9.9e5) ^ 7 := by norm_num
      _ ≤ _ := by gcongr)
  have bc : Bt 1.8 1.9 (ℓ 15 / ℓ 8 : Fl F Ω) := by
    have h1' := rd_le hF (15 / 8)
    have h2' := rd_abs_ge hF (15 / 8)
    refine ⟨F.rd (15 / 8), ?_, h2'.trans' (by norm_num [abs_of_pos]), h1'.trans (by norm_num [abs_of_pos])⟩
    rw [lit_eq hF hΩ3 (n := 15) (by norm_num), lit_eq hF hΩ3 (n := 8) (by norm_num)]
    have := div_fin (F := F) (Ω := Ω) (x := (15 : ℕ)) (y := (8 : ℕ)) (by norm_num)
    norm_num at this ⊢
    refine this (h1'.trans ?_)
    norm_num [abs_of_pos] at h1 ⊢; linarith
  have b1 := bc.mul hF (b := fin mu) .fin (abs_nonneg _) (by norm_num at h1 m1 ⊢; linarith)
  have b2 := b1.mul hF (b := fin J4) .fin (abs_nonneg _) (by norm_num at h1 m2 ⊢; linarith)
  have b3 := (((Bt.fin (x := R)).mul hF (b := fin R) .fin (abs_nonneg _) (Ω := Ω)
    (by norm_num at h1 m3 ⊢; linarith)).mul hF (b := fin R) .fin (abs_nonneg _)
    (by norm_num at h1 m3' ⊢; linarith)).mul hF (b := fin R) .fin (abs_nonneg _)
    (by norm_num at h1 m3'' ⊢; linarith)
  have b4 := b2.mul_inf hF b3 (by positivity) (by norm_num at h2 m4 ⊢; linarith) hΩ
  have ew : (ℓ 15 / ℓ 8 : Fl F Ω) * fin mu * fin J4 * fin R ^ 4 / pinf = nan := by
    rcases b4 with h | h
    · exact (congrArg (· / (pinf : Fl F Ω)) h).trans pinf_div_pinf
    · exact (congrArg (· / (pinf : Fl F Ω)) h).trans ninf_div_pinf
  simp only [j4_acc, Args.get, hmu, hJ, hR, bind, Except.bind, pure, Except.pure, e, ep, ew, nan_mul]

end
end

theorem omega32_bounds : (3e38 : ℝ) ≤ omega32 ∧ omega32 ≤ 4e38 := by constructor <;> norm_num [omega32]

/-- The real arguments as a mapping of finite numbers. -/
noncomputable def flArgs (args : Args ℝ) : Args (Fl F Ω) := fun k => (args k).map fin

/-- C69, on the inputs of the project's own tests `test_earth_j3` and `test_earth_j4` (tests/test_gravity.py),
in binary32 as there: the computed accelerations are exactly zero (the tests compare them with the same formulas, zero with
zero), and the exact ones are not. -/
theorem C69_earth_tests {J3 J4 : ℝ} (h3 : J3 = -2.5327e-6) (h4 : J4 = -1.61962159137e-6) :
    let p : V3 ℝ := ⟨6378137, 0, 0⟩
    let args : Args ℝ := fun k => if k = "mu" then some 3.986004418e14 else if k = "R_eq" then some 6378137 else
      if k = "J3" then some J3 else if k = "J4" then some J4 else none
    j3_acc (fin 0 : Bin32) ⟨finVec p, []⟩ (flArgs args) = .ok ⟨fin 0, fin 0, fin 0⟩ ∧
    j4_acc (fin 0 : Bin32) ⟨finVec p, []⟩ (flArgs args) = .ok ⟨fin 0, fin 0, fin 0⟩ ∧
    (∃ a : V3 ℝ, j3_acc (0 : ℝ) ⟨p, []⟩ args = .ok a ∧ a.z < -3e-5) ∧
    (∃ a : V3 ℝ, j4_acc (0 : ℝ) ⟨p, []⟩ args = .ok a ∧ a.x < -2e-5) := by
  intro p args
  subst h3 h4
  obtain ⟨o1, o2⟩ := omega32_bounds
  have hn : V3.norm p = 6378137 := by
    simp only [V3.norm, V3.dot, p, sqrt_real]
    rw [show (6378137 : ℝ) * 6378137 + 0 * 0 + 0 * 0 = 6378137 ^ 2 by norm_num, Real.sqrt_sq (by norm_num)]
  refine ⟨?_, ?_, ?_, ?_⟩
  · refine C69_j3_zero (stdModel_FB 24 (by norm_num)) o1 o2 (mu := 3.986004418e14) (J3 := -2.5327e-6) (R := 6378137)
      ?_ ?_ ?_ ?_ (by simp [flArgs, args]) (by simp [flArgs, args]) (by simp [flArgs, args]) ?_ ?_ ?_ ?_ ?_
    all_goals first | (rw [hn]; norm_num) | norm_num [p]
  · refine C69_j4_zero (stdModel_FB 24 (by norm_num)) o1 o2 (mu := 3.986004418e14) (J4 := -1.61962159137e-6) (R := 6378137)
      ?_ ?_ ?_ ?_ (by simp [flArgs, args]) (by simp [flArgs, args]) (by simp [flArgs, args]) ?_ ?_ ?_ ?_ ?_ ?_
    all_goals first | (rw [hn]; norm_num) | norm_num [p]
  · refine ⟨_, rfl, ?_⟩
    show _ < _
    simp only [hn]
    norm_num [p]
  · refine ⟨_, rfl, ?_⟩
    simp only [hn]
    norm_num [p]

/-- Jupiter in metres: `mu = 1.26687e17`, `J4 = -5.87e-4`, `R = 7.1492e7`. -/
example (p : V3 ℝ) (hx : |p.x| ≤ 1e12) (hy : |p.y| ≤ 1e12) (hz : |p.z| ≤ 1e12) (hr : 1e6 ≤ V3.norm p) :
    let args : Args ℝ := fun k => if k = "mu" then some 1.26687e17 else if k = "R_eq" then some 7.1492e7 else
      if k = "J4" then some (-5.87e-4) else none
    j4_acc (fin 0 : Bin32) ⟨finVec p, []⟩ (flArgs args) = .ok ⟨nan, nan, nan⟩ := by
  intro args
  obtain ⟨o1, o2⟩ := omega32_bounds
  refine C69_j4_nan (stdModel_FB 24 (by norm_num)) o1 o2 hx hy hz hr (mu := 1.26687e17) (J4 := -5.87e-4) (R := 7.1492e7)
    (by simp [flArgs, args]) (by simp [flArgs, args]) (by simp [flArgs, args]) ?_ ?_ ?_ ?_ ?_ ?_
  all_goals norm_num

/-- `J2` at 60 000 km, in metres. -/
example : let args : Args ℝ := fun k => if k = "mu" then some 3.986004418e14 else if k = "R_eq" then some 6378137 else
      if k = "J2" then some 1.08262668e-3 else none
    j2_acc (fin 0 : Bin32) ⟨finVec ⟨6e7, 0, 0⟩, []⟩ (flArgs args) = .ok ⟨fin 0, fin 0, fin 0⟩ := by
  intro args
  obtain ⟨o1, o2⟩ := omega32_bounds
  refine C69_j2_zero (stdModel_FB 24 (by norm_num)) o1 o2 (mu := 3.986004418e14) (J2 := 1.08262668e-3) (R := 6378137)
    ?_ ?_ ?_ ?_ (by simp [flArgs, args]) (by simp [flArgs, args]) (by simp [flArgs, args]) ?_ ?_ ?_ ?_
  all_goals first
    | (norm_num; done)
    | (simp only [V3.norm, V3.dot, sqrt_real]
       rw [show (6e7 : ℝ) * 6e7 + 0 * 0 + 0 * 0 = 6e7 ^ 2 by norm_num, Real.sqrt_sq (by norm_num)]; norm_num)

end Adx
