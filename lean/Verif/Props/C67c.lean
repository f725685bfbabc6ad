import Verif.Props.C67
import Verif.Model.Gravity
import Verif.Model.OrbElements
import Verif.Model.PathCheck

/-! # C67: rounding errors of accelerations, element conversion and path checks -/

namespace Adx
open Spec

section
variable {F : Fp} {u L : ℝ} (hF : StdModel F u L)
include hF

theorem Near.trans_within {k j m x y z : ℝ} (h : Near u k m y z) (h' : Within u j x y) : Near u (k + j) m x z := by
  obtain ⟨θ, h1, rfl⟩ := h'
  have hj := Within.k_nonneg hF.u_pos hF.lt_one (k := j) (x := y * Real.exp θ) (y := y) ⟨θ, h1, rfl⟩
  have h2 := abs_exp_sub_one_le h1
  refine ⟨add_nonneg h.k0 hj, ?_, h.mag⟩
  rw [← eta] at h2
  have h3 : Real.exp ((k + j) * eta u) = Real.exp (k * eta u) * Real.exp (j * eta u) := by
    rw [← Real.exp_add]; congr 1; ring
  rw [show y * Real.exp θ - z = y * (Real.exp θ - 1) + (y - z) by ring]
  refine (abs_add_le _ _).trans ?_
  rw [abs_mul, h3]
  calc |y| * |Real.exp θ - 1| + |y - z|
      ≤ Real.exp (k * eta u) * m * (Real.exp (j * eta u) - 1) + (Real.exp (k * eta u) - 1) * m := by
        have := h.m_nonneg
        gcongr
        · exact h.abs_le
        · exact h.err
    _ = _ := by ring

/-! ### Gravity -/

omit hF in
/-- The numbers in a mapping. -/
def reArgs (a : Args (Rnd F)) : Args ℝ := fun k => (a k).map Rnd.val

omit hF in
/-- The numbers in a state. -/
def State.re (x : State (Rnd F)) : State ℝ := ⟨x.pos.re, x.rest.map Rnd.val⟩

/-- Point mass: relative error `γ_11.5` of each component. -/
theorem C67_point_mass (t : Rnd F) (x : State (Rnd F)) (a : Args (Rnd F)) (mu : Rnd F) (hmu : a "mu" = some mu) :
    ∃ A B, point_mass_grav t x a = .ok A ∧ point_mass_grav t.val x.re (reArgs a) = .ok B ∧
      |A.x.val - B.x| ≤ gam u (23 / 2) * |B.x| ∧ |A.y.val - B.y| ≤ gam u (23 / 2) * |B.y| ∧
      |A.z.val - B.z| ≤ gam u (23 / 2) * |B.z| := by
  have h1 : Within u (21 / 2) (-(mu / V3.norm x.pos ^ 3)).val (-(mu.val / V3.norm x.pos.re ^ 3)) :=
    (((Within.ex mu).div hF ((within_norm hF x.pos).pow3 hF)).mono hF (by norm_num)).neg
  have key : ∀ c : Rnd F, |(-(mu / V3.norm x.pos ^ 3) * c).val - -(mu.val / V3.norm x.pos.re ^ 3) * c.val| ≤
      gam u (23 / 2) * |-(mu.val / V3.norm x.pos.re ^ 3) * c.val| := fun c =>
    ((h1.mul hF (.ex c)).mono hF (by norm_num)).bound hF (by norm_num) (ku_lt hF (by norm_num))
  refine ⟨_, _, by simp only [point_mass_grav, Args.get, hmu]; rfl, by
    simp only [point_mass_grav, Args.get, reArgs, hmu]; rfl, key _, key _, key _⟩

/-- `|r̂|`-type factors of the zonal accelerations. -/
theorem C67_j2 (t : Rnd F) (x : State (Rnd F)) (a : Args (Rnd F)) (mu J R : Rnd F) (hmu : a "mu" = some mu)
    (hJ : a "J2" = some J) (hR : a "R_eq" = some R) :
    let r := V3.norm x.pos.re
    let w := (x.pos.z.val / r) ^ 2
    let f := 3 / 2 * |mu.val| * |J.val| * R.val ^ 2 / r ^ 5
    ∃ A B, j2_acc t x a = .ok A ∧ j2_acc t.val x.re (reArgs a) = .ok B ∧
      |A.x.val - B.x| ≤ gam u 35 * (f * |x.pos.x.val| * (1 + 5 * w)) ∧
      |A.y.val - B.y| ≤ gam u 35 * (f * |x.pos.y.val| * (1 + 5 * w)) ∧
      |A.z.val - B.z| ≤ gam u 35 * (f * |x.pos.z.val| * (3 + 5 * w)) := by
  intro r w f
  have hw : Within u 8 ((x.pos.z / V3.norm x.pos) ^ 2).val w :=
    (((Within.ex x.pos.z).div hF (within_norm hF x.pos)).sq hF).mono hF (by norm_num)
  have h5 := ((Within.lit hF 5 (by norm_num)).mul hF hw).near hF
  have e5 : |((5 : ℕ) : ℝ) * w| = 5 * w := by
    rw [abs_of_nonneg (by positivity)]; norm_num
  rw [e5] at h5
  have hq : ∀ n : ℕ, n ≤ 1000 → Near u 10 ((n : ℝ) + 5 * w)
      (((n : ℕ) : Rnd F) - ((5 : ℕ) : Rnd F) * (x.pos.z / V3.norm x.pos) ^ 2).val ((n : ℝ) - ((5 : ℕ) : ℝ) * w) := by
    intro n hn
    have := ((Within.lit hF n hn).near hF).sub hF h5
    rw [Nat.abs_cast] at this
    exact this.mono hF (by norm_num) le_rfl
  have hf : Within u (45 / 2) (-(((3 : ℕ) : Rnd F) / ((2 : ℕ) : Rnd F)) * mu * J * R ^ 2 / V3.norm x.pos ^ 5).val
      (-(((3 : ℕ) : ℝ) / ((2 : ℕ) : ℝ)) * mu.val * J.val * R.val ^ 2 / r ^ 5) := by
    have h32 : Within u (0 + 0 + 1) (-(((3 : ℕ) : Rnd F) / ((2 : ℕ) : Rnd F))).val (-(((3 : ℕ) : ℝ) / ((2 : ℕ) : ℝ))) :=
      ((Within.lit hF 3 (by norm_num)).div hF (.lit hF 2 (by norm_num))).neg
    exact ((((h32.mul hF (.ex mu)).mul hF (.ex J)).mul hF ((Within.ex R).sq hF)).div hF
      ((within_norm hF x.pos).pow5 hF)).mono hF (by norm_num)
  have hr0 : 0 ≤ r := V3.norm_nonneg _
  have hfe : |-(((3 : ℕ) : ℝ) / ((2 : ℕ) : ℝ)) * mu.val * J.val * R.val ^ 2 / r ^ 5| = f := by
    rw [abs_div, abs_mul, abs_mul, abs_mul, abs_neg, abs_of_pos (by norm_num : (0 : ℝ) < ((3 : ℕ) : ℝ) / ((2 : ℕ) : ℝ)),
      abs_of_nonneg (sq_nonneg R.val), abs_of_nonneg (by positivity : 0 ≤ r ^ 5)]
    push_cast; rfl
  have key : ∀ (c : Rnd F) (n : ℕ), n ≤ 1000 →
      |(-(((3 : ℕ) : Rnd F) / ((2 : ℕ) : Rnd F)) * mu * J * R ^ 2 / V3.norm x.pos ^ 5 * c *
          (((n : ℕ) : Rnd F) - ((5 : ℕ) : Rnd F) * (x.pos.z / V3.norm x.pos) ^ 2)).val -
        -(((3 : ℕ) : ℝ) / ((2 : ℕ) : ℝ)) * mu.val * J.val * R.val ^ 2 / r ^ 5 * c.val * ((n : ℝ) - ((5 : ℕ) : ℝ) * w)| ≤
      gam u 35 * (f * |c.val| * ((n : ℝ) + 5 * w)) := by
    intro c n hn
    have := ((hf.mul hF (.ex c)).near hF).mul hF (hq n hn)
    rw [abs_mul, hfe] at this
    exact (this.mono hF (by norm_num) le_rfl).bound hF (by norm_num) (ku_lt hF (by norm_num))
  refine ⟨_, _, by simp only [j2_acc, Args.get, hmu, hJ, hR]; rfl, by
    simp only [j2_acc, Args.get, reArgs, hmu, hJ, hR]; rfl, ?_, ?_, ?_⟩
  · exact (key x.pos.x 1 (by norm_num)).trans_eq (by rw [Nat.cast_one])
  · exact (key x.pos.y 1 (by norm_num)).trans_eq (by rw [Nat.cast_one])
  · exact key x.pos.z 3 (by norm_num)

/-- J3: with `g = |factor|`. -/
theorem C67_j3 (t : Rnd F) (x : State (Rnd F)) (a : Args (Rnd F)) (mu J R : Rnd F) (hmu : a "mu" = some mu)
    (hJ : a "J3" = some J) (hR : a "R_eq" = some R) :
    let r := V3.norm x.pos.re
    let z := |x.pos.z.val|
    let f := 5 / 2 * |mu.val| * |J.val| * |R.val| ^ 3 / r ^ 7
    ∃ A B, j3_acc t x a = .ok A ∧ j3_acc t.val x.re (reArgs a) = .ok B ∧
      |A.x.val - B.x| ≤ gam u 44 * (f * |x.pos.x.val| * (3 * z + 7 * (z ^ 3 / r ^ 2))) ∧
      |A.y.val - B.y| ≤ gam u 44 * (f * |x.pos.y.val| * (3 * z + 7 * (z ^ 3 / r ^ 2))) ∧
      |A.z.val - B.z| ≤ gam u 45 * (f * (6 * z ^ 2 + 7 * (z ^ 3 / r ^ 2) * z + 3 / 5 * r ^ 2)) := by
  intro r z f
  have hr0 : 0 ≤ r := V3.norm_nonneg _
  have hz3 : Within u 9 (x.pos.z ^ 3 / V3.norm x.pos ^ 2).val (x.pos.z.val ^ 3 / r ^ 2) :=
    (((Within.ex x.pos.z).pow3 hF).div hF ((within_norm hF x.pos).sq hF)).mono hF (by norm_num)
  have h7 := (Within.lit hF 7 (by norm_num)).mul hF hz3
  have e7 : |((7 : ℕ) : ℝ) * (x.pos.z.val ^ 3 / r ^ 2)| = 7 * (z ^ 3 / r ^ 2) := by
    rw [abs_mul, abs_div, abs_pow, abs_of_nonneg (by positivity : 0 ≤ r ^ 2), Nat.abs_cast]; norm_num; rfl
  have hq : Near u 11 (3 * z + 7 * (z ^ 3 / r ^ 2)) (((3 : ℕ) : Rnd F) * x.pos.z - ((7 : ℕ) : Rnd F) *
      (x.pos.z ^ 3 / V3.norm x.pos ^ 2)).val (((3 : ℕ) : ℝ) * x.pos.z.val - ((7 : ℕ) : ℝ) * (x.pos.z.val ^ 3 / r ^ 2)) := by
    have := (((Within.lit hF 3 (by norm_num)).mul hF (.ex x.pos.z)).near hF).sub hF (h7.near hF)
    rw [e7, abs_mul, Nat.abs_cast] at this
    exact this.mono hF (by norm_num) (by norm_num; rfl)
  have hw : Near u 13 (6 * z ^ 2 + 7 * (z ^ 3 / r ^ 2) * z + 3 / 5 * r ^ 2)
      (((6 : ℕ) : Rnd F) * x.pos.z ^ 2 - ((7 : ℕ) : Rnd F) * (x.pos.z ^ 3 / V3.norm x.pos ^ 2) * x.pos.z -
        ((3 : ℕ) : Rnd F) / ((5 : ℕ) : Rnd F) * V3.norm x.pos ^ 2).val
      (((6 : ℕ) : ℝ) * x.pos.z.val ^ 2 - ((7 : ℕ) : ℝ) * (x.pos.z.val ^ 3 / r ^ 2) * x.pos.z.val -
        ((3 : ℕ) : ℝ) / ((5 : ℕ) : ℝ) * r ^ 2) := by
    have := ((((Within.lit hF 6 (by norm_num)).mul hF ((Within.ex x.pos.z).sq hF)).near hF).sub hF
      ((h7.mul hF (.ex x.pos.z)).near hF)).sub hF ((((Within.lit hF 3 (by norm_num)).div hF
        (.lit hF 5 (by norm_num))).mul hF ((within_norm hF x.pos).sq hF)).near hF)
    have e1 : |((6 : ℕ) : ℝ) * x.pos.z.val ^ 2| = 6 * z ^ 2 := by
      rw [abs_mul, abs_pow, Nat.abs_cast, Nat.cast_ofNat]
    have e2 : |((3 : ℕ) : ℝ) / ((5 : ℕ) : ℝ) * r ^ 2| = 3 / 5 * r ^ 2 := by
      rw [abs_of_nonneg (by positivity)]; norm_num
    rw [e1, abs_mul _ x.pos.z.val, e7, e2] at this
    exact this.mono hF (by norm_num [max_def]) le_rfl
  have hf : Within u (61 / 2) (-(((5 : ℕ) : Rnd F) / ((2 : ℕ) : Rnd F)) * mu * J * R ^ 3 / V3.norm x.pos ^ 7).val
      (-(((5 : ℕ) : ℝ) / ((2 : ℕ) : ℝ)) * mu.val * J.val * R.val ^ 3 / r ^ 7) := by
    have h32 : Within u (0 + 0 + 1) (-(((5 : ℕ) : Rnd F) / ((2 : ℕ) : Rnd F))).val (-(((5 : ℕ) : ℝ) / ((2 : ℕ) : ℝ))) :=
      ((Within.lit hF 5 (by norm_num)).div hF (.lit hF 2 (by norm_num))).neg
    exact ((((h32.mul hF (.ex mu)).mul hF (.ex J)).mul hF ((Within.ex R).pow3 hF)).div hF
      ((within_norm hF x.pos).pow7 hF)).mono hF (by norm_num)
  have hfe : |-(((5 : ℕ) : ℝ) / ((2 : ℕ) : ℝ)) * mu.val * J.val * R.val ^ 3 / r ^ 7| = f := by
    rw [abs_div, abs_mul, abs_mul, abs_mul, abs_neg, abs_of_pos (by norm_num : (0 : ℝ) < ((5 : ℕ) : ℝ) / ((2 : ℕ) : ℝ)),
      abs_pow R.val, abs_of_nonneg (by positivity : 0 ≤ r ^ 7)]
    push_cast; rfl
  have key : ∀ c : Rnd F, |(-(((5 : ℕ) : Rnd F) / ((2 : ℕ) : Rnd F)) * mu * J * R ^ 3 / V3.norm x.pos ^ 7 * c *
          (((3 : ℕ) : Rnd F) * x.pos.z - ((7 : ℕ) : Rnd F) * (x.pos.z ^ 3 / V3.norm x.pos ^ 2))).val -
        -(((5 : ℕ) : ℝ) / ((2 : ℕ) : ℝ)) * mu.val * J.val * R.val ^ 3 / r ^ 7 * c.val *
          (((3 : ℕ) : ℝ) * x.pos.z.val - ((7 : ℕ) : ℝ) * (x.pos.z.val ^ 3 / r ^ 2))| ≤
      gam u 44 * (f * |c.val| * (3 * z + 7 * (z ^ 3 / r ^ 2))) := by
    intro c
    have := ((hf.mul hF (.ex c)).near hF).mul hF hq
    rw [abs_mul, hfe] at this
    exact (this.mono hF (by norm_num) le_rfl).bound hF (by norm_num) (ku_lt hF (by norm_num))
  have keyz := (hf.near hF).mul hF hw
  rw [hfe] at keyz
  exact ⟨_, _, by simp only [j3_acc, Args.get, hmu, hJ, hR]; rfl, by
    simp only [j3_acc, Args.get, reArgs, hmu, hJ, hR]; rfl, key _, key _,
    (keyz.mono hF (j := 45) (by norm_num) le_rfl).bound hF (by norm_num) (ku_lt hF (by norm_num))⟩

/-- J4. -/
theorem C67_j4 (t : Rnd F) (x : State (Rnd F)) (a : Args (Rnd F)) (mu J R : Rnd F) (hmu : a "mu" = some mu)
    (hJ : a "J4" = some J) (hR : a "R_eq" = some R) :
    let r := V3.norm x.pos.re
    let w := (x.pos.z.val / r) ^ 2
    let f := 15 / 8 * |mu.val| * |J.val| * R.val ^ 4 / r ^ 7
    ∃ A B, j4_acc t x a = .ok A ∧ j4_acc t.val x.re (reArgs a) = .ok B ∧
      |A.x.val - B.x| ≤ gam u 53 * (f * |x.pos.x.val| * (1 + 14 * w + 21 * w ^ 2)) ∧
      |A.y.val - B.y| ≤ gam u 53 * (f * |x.pos.y.val| * (1 + 14 * w + 21 * w ^ 2)) ∧
      |A.z.val - B.z| ≤ gam u 53 * (f * |x.pos.z.val| * (5 + 70 * w / 3 + 21 * w ^ 2)) := by
  intro r w f
  have hr0 : 0 ≤ r := V3.norm_nonneg _
  have hw0 : 0 ≤ w := sq_nonneg _
  have hw : Within u 8 ((x.pos.z / V3.norm x.pos) ^ 2).val w :=
    (((Within.ex x.pos.z).div hF (within_norm hF x.pos)).sq hF).mono hF (by norm_num)
  have h21 := ((Within.lit hF 21 (by norm_num)).mul hF (hw.sq hF)).near hF
  rw [abs_of_nonneg (by positivity)] at h21
  have hq : Near u 19 (1 + 14 * w + 21 * w ^ 2)
      (((1 : ℕ) : Rnd F) - ((14 : ℕ) : Rnd F) * (x.pos.z / V3.norm x.pos) ^ 2 +
        ((21 : ℕ) : Rnd F) * ((x.pos.z / V3.norm x.pos) ^ 2) ^ 2).val
      (((1 : ℕ) : ℝ) - ((14 : ℕ) : ℝ) * w + ((21 : ℕ) : ℝ) * w ^ 2) := by
    have h14 := ((Within.lit hF 14 (by norm_num)).mul hF hw).near hF
    rw [abs_of_nonneg (by positivity)] at h14
    have := (((Within.lit hF 1 (by norm_num)).near hF).sub hF h14).add hF h21
    rw [Nat.abs_cast] at this
    exact this.mono hF (by norm_num [max_def]) (by norm_num)
  have hq' : Near u 19 (5 + 70 * w / 3 + 21 * w ^ 2)
      (((5 : ℕ) : Rnd F) - ((70 : ℕ) : Rnd F) * (x.pos.z / V3.norm x.pos) ^ 2 / ((3 : ℕ) : Rnd F) +
        ((21 : ℕ) : Rnd F) * ((x.pos.z / V3.norm x.pos) ^ 2) ^ 2).val
      (((5 : ℕ) : ℝ) - ((70 : ℕ) : ℝ) * w / ((3 : ℕ) : ℝ) + ((21 : ℕ) : ℝ) * w ^ 2) := by
    have h70 := (((Within.lit hF 70 (by norm_num)).mul hF hw).div hF (.lit hF 3 (by norm_num))).near hF
    rw [abs_of_nonneg (by positivity)] at h70
    have := (((Within.lit hF 5 (by norm_num)).near hF).sub hF h70).add hF h21
    rw [Nat.abs_cast] at this
    exact this.mono hF (by norm_num [max_def]) (by norm_num)
  have hf : Within u (63 / 2) (((15 : ℕ) : Rnd F) / ((8 : ℕ) : Rnd F) * mu * J * R ^ 4 / V3.norm x.pos ^ 7).val
      (((15 : ℕ) : ℝ) / ((8 : ℕ) : ℝ) * mu.val * J.val * R.val ^ 4 / r ^ 7) :=
    (((((((Within.lit hF 15 (by norm_num)).div hF (.lit hF 8 (by norm_num))).mul hF (.ex mu)).mul hF (.ex J)).mul hF
      ((Within.ex R).pow4 hF)).div hF ((within_norm hF x.pos).pow7 hF))).mono hF (by norm_num)
  have hfe : |((15 : ℕ) : ℝ) / ((8 : ℕ) : ℝ) * mu.val * J.val * R.val ^ 4 / r ^ 7| = f := by
    rw [abs_div, abs_mul, abs_mul, abs_mul, abs_of_pos (by norm_num : (0 : ℝ) < ((15 : ℕ) : ℝ) / ((8 : ℕ) : ℝ)),
      abs_of_nonneg (by positivity : 0 ≤ R.val ^ 4), abs_of_nonneg (by positivity : 0 ≤ r ^ 7)]
    push_cast; rfl
  have key : ∀ (c q : Rnd F) (m y : ℝ), Near u 19 m q.val y →
      |(((15 : ℕ) : Rnd F) / ((8 : ℕ) : Rnd F) * mu * J * R ^ 4 / V3.norm x.pos ^ 7 * c * q).val -
        ((15 : ℕ) : ℝ) / ((8 : ℕ) : ℝ) * mu.val * J.val * R.val ^ 4 / r ^ 7 * c.val * y| ≤
      gam u 53 * (f * |c.val| * m) := by
    intro c q m y h
    have := ((hf.mul hF (.ex c)).near hF).mul hF h
    rw [abs_mul, hfe] at this
    exact (this.mono hF (by norm_num) le_rfl).bound hF (by norm_num) (ku_lt hF (by norm_num))
  exact ⟨_, _, by simp only [j4_acc, Args.get, hmu, hJ, hR]; rfl, by
    simp only [j4_acc, Args.get, reArgs, hmu, hJ, hR]; rfl, key _ _ _ _ hq, key _ _ _ _ hq, key _ _ _ _ hq'⟩

/-! ### Vectors and matrices -/

omit hF in
/-- Componentwise `Near` with one majorant. -/
structure NearV (u k m : ℝ) (A : V3 (Rnd F)) (a : V3 ℝ) : Prop where
  x : Near u k m A.x.val a.x
  y : Near u k m A.y.val a.y
  z : Near u k m A.z.val a.z

omit hF in
theorem V3.abs_norm_sub_norm_le (a b : V3 ℝ) : |V3.norm a - V3.norm b| ≤ V3.norm (a - b) := by
  refine abs_le_of_sq_le_sq ?_ (V3.norm_nonneg _)
  have h1 := V3.norm_sq' a
  have h2 := V3.norm_sq' b
  have h3 := V3.norm_sq' (a - b)
  have h4 := (le_abs_self _).trans (V3.abs_dot_le a b)
  simp only [V3.sub_x, V3.sub_y, V3.sub_z] at h3
  rw [V3.dot] at h4
  rw [← h3]
  nlinarith

theorem NearV.norm {k m : ℝ} {A : V3 (Rnd F)} {a : V3 ℝ} (h : NearV u k m A a) :
    Near u (k + 5 / 2) (2 * m) (V3.norm A).val (V3.norm a) := by
  have h0 := h.x.m_nonneg
  have hk := Near.exp_sub_nonneg hF h.x.k0
  have n2 : ∀ (b : V3 ℝ) (c : ℝ), 0 ≤ c → |b.x| ≤ c → |b.y| ≤ c → |b.z| ≤ c → V3.norm b ≤ 2 * c := by
    intro b c hc hx hy hz
    refine abs_le_of_sq_le_sq' ?_ (by positivity) |>.2
    rw [← V3.norm_sq', ← sq_abs b.x, ← sq_abs b.y, ← sq_abs b.z]
    nlinarith [pow_le_pow_left₀ (abs_nonneg _) hx 2, pow_le_pow_left₀ (abs_nonneg _) hy 2,
      pow_le_pow_left₀ (abs_nonneg _) hz 2]
  refine Near.trans_within hF (y := V3.norm A.re) ⟨h.x.k0, ?_, ?_⟩ (within_norm hF A)
  · have h1 : |V3.norm A.re - V3.norm a| ≤ V3.norm (A.re - a) := V3.abs_norm_sub_norm_le _ _
    refine h1.trans ((n2 _ _ (mul_nonneg hk h0) h.x.err h.y.err h.z.err).trans_eq (by ring))
  · rw [abs_of_nonneg (V3.norm_nonneg _)]
    exact n2 _ _ h0 h.x.mag h.y.mag h.z.mag

theorem near_dot3 {A B : V3 (Rnd F)} {a b : V3 ℝ} {k j m1 m2 m3 n1 n2 n3 : ℝ} (h1 : Near u k m1 A.x.val a.x)
    (h2 : Near u k m2 A.y.val a.y) (h3 : Near u k m3 A.z.val a.z) (g1 : Near u j n1 B.x.val b.x)
    (g2 : Near u j n2 B.y.val b.y) (g3 : Near u j n3 B.z.val b.z) :
    Near u (k + j + 3) (m1 * n1 + m2 * n2 + m3 * n3) (V3.dot A B).val (V3.dot a b) := by
  refine (((h1.mul hF g1).add hF (h2.mul hF g2)).add hF (h3.mul hF g3)).mono hF ?_ le_rfl
  simp only [max_def]; split_ifs <;> linarith

theorem NearV.dot {A B : V3 (Rnd F)} {a b : V3 ℝ} {k j m n : ℝ} (h : NearV u k m A a) (g : NearV u j n B b) :
    Near u (k + j + 3) (3 * (m * n)) (V3.dot A B).val (V3.dot a b) :=
  (near_dot3 hF h.x h.y h.z g.x g.y g.z).mono hF le_rfl (by linarith)

theorem NearV.cross {A B : V3 (Rnd F)} {a b : V3 ℝ} {k j m n : ℝ} (h : NearV u k m A a) (g : NearV u j n B b) :
    NearV u (k + j + 2) (2 * (m * n)) (V3.cross A B) (V3.cross a b) := by
  have key : ∀ {p q r s : Rnd F} {p' q' r' s' : ℝ}, Near u k m p.val p' → Near u j n q.val q' → Near u k m r.val r' →
      Near u j n s.val s' → Near u (k + j + 2) (2 * (m * n)) (p * q - r * s).val (p' * q' - r' * s') := by
    intro p q r s p' q' r' s' h1 h2 h3 h4
    refine ((h1.mul hF h2).sub hF (h3.mul hF h4)).mono hF ?_ (by linarith)
    rw [max_self]; linarith
  exact ⟨key h.y g.z h.z g.y, key h.z g.x h.x g.z, key h.x g.y h.y g.x⟩

omit hF in
theorem abs_two_le {a b c d A B : ℝ} (h1 : a ^ 2 + c ^ 2 ≤ A ^ 2) (h2 : b ^ 2 + d ^ 2 ≤ B ^ 2) (hA : 0 ≤ A)
    (hB : 0 ≤ B) : |a * b| + |c * d| ≤ A * B := by
  refine abs_le_of_sq_le_sq' ?_ (by positivity) |>.2
  rw [abs_mul, abs_mul]
  calc (|a| * |b| + |c| * |d|) ^ 2 ≤ (|a| ^ 2 + |c| ^ 2) * (|b| ^ 2 + |d| ^ 2) := by
        nlinarith [sq_nonneg (|a| * |d| - |c| * |b|)]
    _ ≤ A ^ 2 * B ^ 2 := by
        rw [sq_abs, sq_abs, sq_abs, sq_abs]; gcongr
    _ = _ := by ring

/-- Cross product of given vectors: each component within `γ_2 |r| |v|`. -/
theorem nearV_cross (r v : V3 (Rnd F)) :
    NearV u 2 (V3.norm r.re * V3.norm v.re) (V3.cross r v) (V3.cross r.re v.re) := by
  have hr := V3.norm_sq' r.re
  have hv := V3.norm_sq' v.re
  have hr0 := V3.norm_nonneg r.re
  have hv0 := V3.norm_nonneg v.re
  have key : ∀ a b c d : Rnd F, a.val ^ 2 + c.val ^ 2 ≤ V3.norm r.re ^ 2 → b.val ^ 2 + d.val ^ 2 ≤ V3.norm v.re ^ 2 →
      Near u 2 (V3.norm r.re * V3.norm v.re) (a * b - c * d).val (a.val * b.val - c.val * d.val) := by
    intro a b c d h1 h2
    exact ((((Within.ex a).mul hF (.ex b)).near hF).sub hF (((Within.ex c).mul hF (.ex d)).near hF)).mono hF
      (by norm_num) (abs_two_le h1 h2 hr0 hv0)
  have e1 : r.re.x = r.x.val := rfl
  have e2 : r.re.y = r.y.val := rfl
  have e3 : r.re.z = r.z.val := rfl
  have e4 : v.re.x = v.x.val := rfl
  have e5 : v.re.y = v.y.val := rfl
  have e6 : v.re.z = v.z.val := rfl
  rw [e1, e2, e3] at hr
  rw [e4, e5, e6] at hv
  exact ⟨key _ _ _ _ (by nlinarith [sq_nonneg r.x.val]) (by nlinarith [sq_nonneg v.x.val]),
    key _ _ _ _ (by nlinarith [sq_nonneg r.y.val]) (by nlinarith [sq_nonneg v.y.val]),
    key _ _ _ _ (by nlinarith [sq_nonneg r.z.val]) (by nlinarith [sq_nonneg v.z.val])⟩

/-- Eccentricity vector. -/
theorem nearV_ecc (r v : V3 (Rnd F)) (mu : Rnd F) :
    NearV u 6 (2 * V3.norm r.re * V3.norm v.re ^ 2 / |mu.val| + 1) (eccentricity_vector r v mu)
      (eccentricity_vector r.re v.re mu.val) := by
  have h1 := V3.norm_sq' r.re
  have h2 := V3.norm_sq' v.re
  have hr := V3.norm_nonneg r.re
  have hv := V3.norm_nonneg v.re
  simp only [V3.re] at h1 h2
  refine ⟨?_, ?_, ?_⟩
  · exact (near_ecc hF v.y r.x v.y r.y v.x v.z r.z mu r v.z).mono hF le_rfl
      (ecc_mag hr (by simp only [V3.re]; linarith) (by simp only [V3.re]; linarith) hv)
  · exact (near_ecc hF v.z r.y v.z r.z v.y v.x r.x mu r v.x).mono hF le_rfl
      (ecc_mag hr (by simp only [V3.re]; linarith) (by simp only [V3.re]; linarith) hv)
  · exact (near_ecc hF v.x r.z v.x r.x v.z v.y r.y mu r v.y).mono hF le_rfl
      (ecc_mag hr (by simp only [V3.re]; linarith) (by simp only [V3.re]; linarith) hv)

theorem nearV_ex (r : V3 (Rnd F)) : NearV u 0 (V3.norm r.re) r r.re := by
  have h1 := V3.norm_sq' r.re
  have hr := V3.norm_nonneg r.re
  have hx : |r.re.x| ≤ V3.norm r.re := abs_le_of_sq_le_sq (by nlinarith [sq_nonneg r.re.y, sq_nonneg r.re.z]) hr
  have hy : |r.re.y| ≤ V3.norm r.re := abs_le_of_sq_le_sq (by nlinarith [sq_nonneg r.re.x, sq_nonneg r.re.z]) hr
  have hz : |r.re.z| ≤ V3.norm r.re := abs_le_of_sq_le_sq (by nlinarith [sq_nonneg r.re.x, sq_nonneg r.re.y]) hr
  exact ⟨(exN hF r.x).mono hF le_rfl hx, (exN hF r.y).mono hF le_rfl hy, (exN hF r.z).mono hF le_rfl hz⟩

/-- A sign computed outside the rounding band is right. -/
theorem Near.sign {k m a x : ℝ} (h : Near u k m a x) (hk : 1 ≤ k) (hku : k * u < 1) (hb : gam u k * m < |x|) :
    0 < a ↔ 0 < x := by
  have h1 := _root_.abs_le.1 (h.bound hF hk hku)
  rcases le_total 0 x with hx | hx
  · rw [abs_of_nonneg hx] at hb
    have := h.m_nonneg
    have h3 : 0 ≤ gam u k * m := (abs_nonneg _).trans (h.bound hF hk hku)
    exact ⟨fun _ => by linarith, fun _ => by linarith⟩
  · rw [abs_of_nonpos hx] at hb
    exact ⟨fun _ => by linarith, fun _ => by linarith⟩

/-- `is_short_way` decides like the exact formula outside the rounding band. -/
theorem C67_is_short_way (r1 v1 r2 : V3 (Rnd F))
    (h : gam u 7 * (3 * (V3.norm r1.re * V3.norm v1.re * (V3.norm r1.re * V3.norm r2.re))) <
      |V3.dot (V3.cross r1.re v1.re) (V3.cross r1.re r2.re)|) :
    is_short_way r1 v1 r2 = is_short_way r1.re v1.re r2.re := by
  have h1 := (nearV_cross hF r1 v1).dot hF (nearV_cross hF r1 r2)
  have h2 := Near.sign hF (h1.mono hF (j := 7) (by norm_num) le_rfl) (by norm_num) (ku_lt hF (by norm_num)) h
  rw [Bool.eq_iff_iff]
  have z0 : F.rd 0 = 0 := by simpa using hF.lit 0 (by norm_num)
  simp only [is_short_way, JFun.lt, decide_eq_true_eq, Rnd.val_natCast, Nat.cast_zero, z0]
  exact h2

/-- `pass_perigee` decides like the exact formula outside the rounding bands of its three signs. -/
theorem C67_pass_perigee (r1 v1 r2 : V3 (Rnd F)) (mu : Rnd F)
    (h : gam u 7 * (3 * (V3.norm r1.re * V3.norm v1.re * (V3.norm r1.re * V3.norm r2.re))) <
      |V3.dot (V3.cross r1.re v1.re) (V3.cross r1.re r2.re)|)
    (h1 : gam u 13 * (6 * V3.norm r1.re ^ 2 * V3.norm r2.re * (2 * V3.norm r1.re * V3.norm v1.re ^ 2 / |mu.val| + 1)) <
      |V3.dot (V3.cross r1.re r2.re) (V3.cross r1.re (eccentricity_vector r1.re v1.re mu.val))|)
    (h2 : gam u 13 * (6 * V3.norm r1.re * V3.norm r2.re ^ 2 * (2 * V3.norm r1.re * V3.norm v1.re ^ 2 / |mu.val| + 1)) <
      |V3.dot (V3.cross r1.re r2.re) (V3.cross (eccentricity_vector r1.re v1.re mu.val) r2.re)|) :
    pass_perigee r1 v1 r2 mu = pass_perigee r1.re v1.re r2.re mu.val := by
  have n1 := (nearV_cross hF r1 r2).dot hF ((nearV_ex hF r1).cross hF (nearV_ecc hF r1 v1 mu))
  have n2 := (nearV_cross hF r1 r2).dot hF ((nearV_ecc hF r1 v1 mu).cross hF (nearV_ex hF r2))
  have s1 := Near.sign hF (n1.mono hF (j := 13) (by norm_num) le_rfl) (by norm_num) (ku_lt hF (by norm_num))
    (lt_of_eq_of_lt (by ring) h1)
  have s2 := Near.sign hF (n2.mono hF (j := 13) (by norm_num) le_rfl) (by norm_num) (ku_lt hF (by norm_num))
    (lt_of_eq_of_lt (by ring) h2)
  have e0 := C67_is_short_way hF r1 v1 r2 h
  have lt0 : ∀ a : Rnd F, JFun.lt ((0 : ℕ) : Rnd F) a = decide (0 < a.val) := by
    intro a
    have z0 : F.rd 0 = 0 := by simpa using hF.lit 0 (by norm_num)
    simp [JFun.lt, Rnd.val_natCast, z0]
  have lt1 : ∀ a : ℝ, JFun.lt ((0 : ℕ) : ℝ) a = decide (0 < a) := by
    intro a
    simp [JFun.lt]
  simp only [pass_perigee]
  rw [e0, lt0, lt0, lt1, lt1]
  congr 2
  · exact decide_eq_decide.2 s1
  · exact decide_eq_decide.2 s2

theorem near_p (r v : V3 (Rnd F)) (mu : Rnd F) :
    Near u 11 (4 * (V3.norm r.re * V3.norm v.re) ^ 2 / |mu.val|) (semiparameter (V3.norm (angular_momentum r v)) mu).val
      (semiparameter (V3.norm (angular_momentum r.re v.re)) mu.val) := by
  have h1 := (nearV_cross hF r v).norm hF
  have h2 := (h1.mul hF h1).div hF (.ex mu)
  have e : semiparameter (V3.norm (angular_momentum r.re v.re)) mu.val =
      V3.norm (V3.cross r.re v.re) * V3.norm (V3.cross r.re v.re) / mu.val := by
    simp only [semiparameter, angular_momentum]; rw [sq]
  rw [e]
  exact h2.mono hF (by norm_num) (by rw [show 2 * (r.re.norm * v.re.norm) * (2 * (r.re.norm * v.re.norm)) =
    4 * (r.re.norm * v.re.norm) ^ 2 by ring])

theorem near_e (r v : V3 (Rnd F)) (mu : Rnd F) :
    Near u (17 / 2) (4 * V3.norm r.re * V3.norm v.re ^ 2 / |mu.val| + 2) (V3.norm (eccentricity_vector r v mu)).val
      (V3.norm (eccentricity_vector r.re v.re mu.val)) :=
  ((nearV_ecc hF r v mu).norm hF).mono hF (by norm_num) (by ring_nf; rfl)

/-- Semiparameter and eccentricity returned by `rv2coe`. -/
theorem C67_rv2coe_pe (r v : V3 (Rnd F)) (mu : Rnd F) :
    |(rv2coe r v mu).p.val - (rv2coe r.re v.re mu.val).p| ≤
      gam u 11 * (4 * (V3.norm r.re * V3.norm v.re) ^ 2 / |mu.val|) ∧
    |(rv2coe r v mu).e.val - (rv2coe r.re v.re mu.val).e| ≤
      gam u (17 / 2) * (4 * V3.norm r.re * V3.norm v.re ^ 2 / |mu.val| + 2) :=
  ⟨(near_p hF r v mu).bound hF (by norm_num) (ku_lt hF (by norm_num)),
    (near_e hF r v mu).bound hF (by norm_num) (ku_lt hF (by norm_num))⟩

/-- Periapsis radius, and the decision `rp < rmin`, outside the rounding band. -/
theorem C67_rp_islower_rmin (rmin mu : Rnd F) (r v : V3 (Rnd F)) {c : ℝ}
    (hc : c = 4 * V3.norm r.re * V3.norm v.re ^ 2 / |mu.val| + 3) (hs : 50 * c * u ≤ 1)
    (h : gam u (20 * c + 12) * (4 * (V3.norm r.re * V3.norm v.re) ^ 2 / |mu.val|) <
      |radius_periapsis (semiparameter (V3.norm (angular_momentum r.re v.re)) mu.val)
        (V3.norm (eccentricity_vector r.re v.re mu.val)) - rmin.val|) :
    rp_islower_rmin rmin r v mu = rp_islower_rmin rmin.val r.re v.re mu.val := by
  have hu := hF.u_pos
  have hR := V3.norm_nonneg r.re
  have hV := V3.norm_nonneg v.re
  have hc3 : 3 ≤ c := by rw [hc]; have : 0 ≤ 4 * V3.norm r.re * V3.norm v.re ^ 2 / |mu.val| := by positivity
                         linarith
  set e := V3.norm (eccentricity_vector r.re v.re mu.val) with he
  have he0 : 0 ≤ e := V3.norm_nonneg _
  have n1 : Near u 10 c (((1 : ℕ) : Rnd F) + V3.norm (eccentricity_vector r v mu)).val (((1 : ℕ) : ℝ) + e) := by
    refine (((Within.lit hF 1 (by norm_num)).near hF).add hF (near_e hF r v mu)).mono hF (by norm_num) ?_
    rw [Nat.cast_one, abs_one, hc]; linarith
  have pos : (1 : ℝ) ≤ ((1 : ℕ) : ℝ) + e := by rw [Nat.cast_one]; linarith
  have w1 : Within u (20 * c) (((1 : ℕ) : Rnd F) + V3.norm (eccentricity_vector r v mu)).val (((1 : ℕ) : ℝ) + e) :=
    (n1.within hF (c := c) (by norm_num) (by positivity) (by rw [abs_of_pos (by linarith)]; nlinarith) (by linarith)).mono hF
      (by linarith)
  have n2 := (near_p hF r v mu).div hF w1
  rw [abs_of_pos (by linarith : 0 < ((1 : ℕ) : ℝ) + e)] at n2
  have hm : 0 ≤ 4 * (V3.norm r.re * V3.norm v.re) ^ 2 / |mu.val| := by positivity
  have n3 := n2.mono hF (j := 20 * c + 12) (by linarith) (div_le_self hm pos)
  have hk : (20 * c + 12) * u < 1 := by nlinarith [hF.u_small]
  have hb := abs_le.1 (n3.bound hF (by linarith) hk)
  rw [Bool.eq_iff_iff]
  simp only [rp_islower_rmin, JFun.lt, decide_eq_true_eq]
  change (semiparameter (V3.norm (angular_momentum r v)) mu /
    (((1 : ℕ) : Rnd F) + V3.norm (eccentricity_vector r v mu))).val < rmin.val ↔
    semiparameter (V3.norm (angular_momentum r.re v.re)) mu.val / (((1 : ℕ) : ℝ) + e) < rmin.val
  simp only [radius_periapsis] at h
  rcases lt_abs.1 h with h | h
  · exact ⟨fun _ => by linarith, fun _ => by linarith⟩
  · exact ⟨fun _ => by linarith, fun _ => by linarith⟩

/-! ### `coe2rv` -/

omit hF in
theorem abs_sin_cos_le (x : ℝ) : |Real.cos x| + |Real.sin x| ≤ 3 / 2 := by
  have h := Real.sin_sq_add_cos_sq x
  refine abs_le_of_sq_le_sq' ?_ (by positivity) |>.2
  rw [← sq_abs, ← sq_abs (Real.cos x)] at h
  nlinarith [sq_nonneg (|Real.cos x| - |Real.sin x|)]

theorem lit0N : Near u L 0 ((0 : ℕ) : Rnd F).val ((0 : ℕ) : ℝ) := by
  have := (Within.lit hF 0 (by norm_num)).near hF
  rw [Nat.cast_zero, abs_zero] at this
  rw [Nat.cast_zero]
  exact this.mono hF (le_trans zero_le_one hF.one_le) le_rfl

theorem lit1N : Near u L 1 ((1 : ℕ) : Rnd F).val ((1 : ℕ) : ℝ) := by
  have := (Within.lit hF 1 (by norm_num)).near hF
  rw [Nat.cast_one, abs_one] at this
  rw [Nat.cast_one]
  exact this.mono hF (le_trans zero_le_one hF.one_le) le_rfl

/-- The perifocal rotation matrix: every entry within `γ_(3L+6) · 3/2`. -/
theorem near_rotmat (incl raan argp : Rnd F) :
    let A := perifocalToInertial incl raan argp
    let a := perifocalToInertial incl.val raan.val argp.val
    NearV u (3 * L + 6) (3 / 2) A.r0 a.r0 ∧ NearV u (3 * L + 6) (3 / 2) A.r1 a.r1 ∧
      NearV u (3 * L + 6) (3 / 2) A.r2 a.r2 := by
  intro A a
  have c : ∀ x : Rnd F, Near u L |Real.cos x.val| (JFun.cos x).val (Real.cos x.val) := fun x => (within_cos hF x).near hF
  have s : ∀ x : Rnd F, Near u L |Real.sin x.val| (JFun.sin x).val (Real.sin x.val) := fun x => (within_sin hF x).near hF
  have z := lit0N hF
  have o := lit1N hF
  have hc := fun x => Real.abs_cos_le_one x
  have hs := fun x => Real.abs_sin_le_one x
  have cs := abs_sin_cos_le
  have n : ∀ {k m a x : ℝ}, Near u k m a x → Near u k m (-a) (-x) := fun h => h.neg
  have h1 : ∀ p q r s : ℝ, |p| ≤ 1 → |q| ≤ 1 → |p| * |q| ≤ 1 := fun p q _ _ h1 h2 => mul_le_one₀ h1 (abs_nonneg _) h2
  -- the first product
  have k1 : ∀ {X Y : V3 (Rnd F)} {x y : V3 ℝ} {m1 m2 m3 n1 n2 n3 : ℝ}, Near u L m1 X.x.val x.x → Near u L m2 X.y.val x.y →
      Near u L m3 X.z.val x.z → Near u L n1 Y.x.val y.x → Near u L n2 Y.y.val y.y → Near u L n3 Y.z.val y.z →
      m1 * n1 + m2 * n2 + m3 * n3 ≤ 1 → Near u (2 * L + 3) 1 (V3.dot X Y).val (V3.dot x y) :=
    fun h1 h2 h3 g1 g2 g3 hm => (near_dot3 hF h1 h2 h3 g1 g2 g3).mono hF (by linarith) hm
  have p2 : ∀ p q : ℝ, 0 ≤ p → 0 ≤ q → p ≤ 1 → q ≤ 1 → p * q ≤ 1 := fun p q _ h0 h1 h2 => mul_le_one₀ h1 h0 h2
  set B := M3.mul (rotmat3dz raan) (rotmat3dx incl) with hB
  set b := M3.mul (rotmat3dz raan.val) (rotmat3dx incl.val) with hb
  have B0 : NearV u (2 * L + 3) 1 B.r0 b.r0 :=
    ⟨k1 (c raan) (n (s raan)) z o z z (by nlinarith [hc raan.val]),
     k1 (c raan) (n (s raan)) z z (c incl) (s incl) (by nlinarith [p2 _ _ (abs_nonneg _) (abs_nonneg _) (hs raan.val) (hc incl.val)]),
     k1 (c raan) (n (s raan)) z z (n (s incl)) (c incl) (by nlinarith [p2 _ _ (abs_nonneg _) (abs_nonneg _) (hs raan.val) (hs incl.val)])⟩
  have B1 : NearV u (2 * L + 3) 1 B.r1 b.r1 :=
    ⟨k1 (s raan) (c raan) z o z z (by nlinarith [hs raan.val]),
     k1 (s raan) (c raan) z z (c incl) (s incl) (by nlinarith [p2 _ _ (abs_nonneg _) (abs_nonneg _) (hc raan.val) (hc incl.val)]),
     k1 (s raan) (c raan) z z (n (s incl)) (c incl) (by nlinarith [p2 _ _ (abs_nonneg _) (abs_nonneg _) (hc raan.val) (hs incl.val)])⟩
  have B2 : NearV u (2 * L + 3) 1 B.r2 b.r2 :=
    ⟨k1 z z o o z z (by norm_num),
     k1 z z o z (c incl) (s incl) (by nlinarith [hs incl.val]),
     k1 z z o z (n (s incl)) (c incl) (by nlinarith [hc incl.val])⟩
  have k2 : ∀ {X : V3 (Rnd F)} {x : V3 ℝ}, NearV u (2 * L + 3) 1 X x →
      NearV u (3 * L + 6) (3 / 2)
        ⟨V3.dot X (M3.transpose (rotmat3dz argp)).r0, V3.dot X (M3.transpose (rotmat3dz argp)).r1,
          V3.dot X (M3.transpose (rotmat3dz argp)).r2⟩
        ⟨V3.dot x (M3.transpose (rotmat3dz argp.val)).r0, V3.dot x (M3.transpose (rotmat3dz argp.val)).r1,
          V3.dot x (M3.transpose (rotmat3dz argp.val)).r2⟩ := by
    intro X x h
    exact ⟨(near_dot3 hF h.x h.y h.z (c argp) (s argp) z).mono hF (by linarith) (by linarith [cs argp.val]),
      (near_dot3 hF h.x h.y h.z (n (s argp)) (c argp) z).mono hF (by linarith) (by linarith [cs argp.val]),
      (near_dot3 hF h.x h.y h.z z z o).mono hF (by linarith) (by norm_num)⟩
  exact ⟨k2 B0, k2 B1, k2 B2⟩

/-- Position of `coe2rv`: `ρ = p / (1 + e cos f)` with condition number `c`. -/
theorem C67_coe2rv_pos (p e incl raan argp f mu : Rnd F) {c : ℝ} (h0 : 1 + e.val * Real.cos f.val ≠ 0)
    (hc : 1 + |e.val * Real.cos f.val| ≤ c * |1 + e.val * Real.cos f.val|) (hs : 5 * (c * (L + 2) * u) ≤ 1) :
    let A := (coe2rv p e incl raan argp f mu).1
    let a := (coe2rv p.val e.val incl.val raan.val argp.val f.val mu.val).1
    let m := 9 / 4 * |p.val / (1 + e.val * Real.cos f.val)|
    let g := gam u (2 * c * (L + 2) + 4 * L + 11)
    |A.x.val - a.x| ≤ g * m ∧ |A.y.val - a.y| ≤ g * m ∧ |A.z.val - a.z| ≤ g * m := by
  intro A a m g
  have hL := hF.one_le
  have hL2 := hF.le_hundred
  have hu := hF.u_pos
  have hw := (near_one_add_cos hF e f).within hF (by linarith) h0 hc (by linarith)
  have hk := hw.k_nonneg hF.u_pos hF.lt_one
  obtain ⟨R0, R1, R2⟩ := near_rotmat hF incl raan argp
  set rho := p.val / (1 + e.val * Real.cos f.val) with hrho
  have hr : Within u (2 * c * (L + 2) + 1) (p / (((1 : ℕ) : Rnd F) + e * JFun.cos f)).val rho :=
    ((Within.ex p).div hF hw).mono hF (by linarith)
  have hx := (hr.mul hF (within_cos hF f)).near hF
  have hy := (hr.mul hF (within_sin hF f)).near hF
  have hz := ((hr.mul hF ((Within.lit hF 0 (by norm_num)).mono hF (j := L) (by linarith)))).near hF
  have hm : ∀ X : ℝ, X = 3 / 2 * |rho * Real.cos f.val| + 3 / 2 * |rho * Real.sin f.val| +
      3 / 2 * |rho * ((0 : ℕ) : ℝ)| → X ≤ m := by
    rintro X rfl
    rw [abs_mul, abs_mul, Nat.cast_zero, mul_zero, abs_zero]
    have := mul_le_mul_of_nonneg_left (abs_sin_cos_le f.val) (abs_nonneg rho)
    show _ ≤ 9 / 4 * |rho|
    linarith
  have hku : (2 * c * (L + 2) + 4 * L + 11) * u < 1 := by nlinarith [hF.u_small]
  have e1 : perifocalPos p.val e.val f.val = ⟨rho * Real.cos f.val, rho * Real.sin f.val, rho * ((0 : ℕ) : ℝ)⟩ := by
    ext <;> simp [perifocalPos, hrho]
  have key : ∀ {X : V3 (Rnd F)} {x : V3 ℝ}, NearV u (3 * L + 6) (3 / 2) X x →
      |(V3.dot X (perifocalPos p e f)).val - V3.dot x (perifocalPos p.val e.val f.val)| ≤ g * m := by
    intro X x h
    rw [e1]
    exact ((near_dot3 hF (B := perifocalPos p e f) h.x h.y h.z hx hy hz).mono hF (by linarith) (hm _ rfl)).bound hF (by linarith) hku
  exact ⟨key R0, key R1, key R2⟩

/-- Velocity of `coe2rv`. -/
theorem C67_coe2rv_vel (p e incl raan argp f mu : Rnd F) :
    let A := (coe2rv p e incl raan argp f mu).2
    let a := (coe2rv p.val e.val incl.val raan.val argp.val f.val mu.val).2
    let m := Real.sqrt (mu.val / p.val) * (9 / 4 + 3 / 2 * |e.val|)
    let g := gam u (4 * L + 13)
    |A.x.val - a.x| ≤ g * m ∧ |A.y.val - a.y| ≤ g * m ∧ |A.z.val - a.z| ≤ g * m := by
  intro A a m g
  have hL := hF.one_le
  have hL2 := hF.le_hundred
  have hu := hF.u_pos
  obtain ⟨R0, R1, R2⟩ := near_rotmat hF incl raan argp
  set q := Real.sqrt (mu.val / p.val) with hq
  have hq0 : 0 ≤ q := Real.sqrt_nonneg _
  have hr : Within u (3 / 2) (JFun.sqrt (mu / p)).val q :=
    (((Within.ex mu).div hF (.ex p)).sqrt hF).mono hF (by norm_num)
  have hr' := hr.near hF
  rw [abs_of_nonneg hq0] at hr'
  have j : L ≤ L + 1 := by linarith
  have hx := hr'.mul hF (((within_sin hF f).near hF).neg.mono hF j le_rfl)
  have hy := hr'.mul hF (((exN hF e).add hF ((within_cos hF f).near hF)).mono hF (j := L + 1)
    (by rw [max_eq_right (by linarith)]) le_rfl)
  have hz := hr'.mul hF ((lit0N hF).mono hF j le_rfl)
  have hm : ∀ X : ℝ, X = 3 / 2 * (q * |Real.sin f.val|) + 3 / 2 * (q * (|e.val| + |Real.cos f.val|)) +
      3 / 2 * (q * 0) → X ≤ m := by
    rintro X rfl
    have := mul_le_mul_of_nonneg_left (abs_sin_cos_le f.val) hq0
    show _ ≤ q * (9 / 4 + 3 / 2 * |e.val|)
    linarith
  have e1 : perifocalVel p.val e.val f.val mu.val =
      ⟨q * -Real.sin f.val, q * (e.val + Real.cos f.val), q * ((0 : ℕ) : ℝ)⟩ := by
    ext <;> simp [perifocalVel, hq]
  have key : ∀ {X : V3 (Rnd F)} {x : V3 ℝ}, NearV u (3 * L + 6) (3 / 2) X x →
      |(V3.dot X (perifocalVel p e f mu)).val - V3.dot x (perifocalVel p.val e.val f.val mu.val)| ≤ g * m := by
    intro X x h
    rw [e1]
    exact ((near_dot3 hF (B := perifocalVel p e f mu) h.x h.y h.z hx hy hz).mono hF (by linarith) (hm _ rfl)).bound hF (by linarith)
      (ku_lt hF (by linarith))
  exact ⟨key R0, key R1, key R2⟩

end
end Adx
