import Verif.Lemmas.RoundErr
import Verif.Model.OrbIntegrals
import Verif.Model.Lagrange
import Verif.Model.KepEqu

/-! # C67: rounding errors of the formulas

The model evaluated in rounded arithmetic (`Rnd F`, any format and library meeting the standard model), compared with the
same formula in exact arithmetic. Products, quotients and roots: a relative bound `γ_k`. Sums that may cancel: a bound
`γ_k` times the sum of the magnitudes of the terms. -/

namespace Adx
open Spec

section
variable {F : Fp} {u L : ℝ} (hF : StdModel F u L)

/-- The inputs are floating-point numbers: no error yet. -/
theorem Spec.Within.ex (a : Rnd F) : Within u 0 a.val a.val := .refl _ _
theorem exN (hF : StdModel F u L) (a : Rnd F) : Near u 0 |a.val| a.val a.val := (Within.ex a).near hF

include hF

theorem ku_lt {k : ℝ} (hk : k ≤ 999) : k * u < 1 := by
  have h1 := hF.u_pos
  have h2 := hF.u_small
  nlinarith

/-! ### `_orb_integrals.py` -/

theorem within_orb_period (a mu : Rnd F) : Within u (11 / 2) (orb_period a mu).val (orb_period a.val mu.val) :=
  (((Within.lit hF 2 (by norm_num)).mul hF (.pi hF)).mul hF
    ((((Within.ex a).pow3 hF).div hF (.ex mu)).sqrt hF)).mono hF (by norm_num)

theorem C67_orb_period (a mu : Rnd F) :
    |(orb_period a mu).val - orb_period a.val mu.val| ≤ gam u (11 / 2) * |orb_period a.val mu.val| :=
  (within_orb_period hF a mu).bound hF (by norm_num) (ku_lt hF (by norm_num))

theorem C67_a_from_period (P mu : Rnd F) :
    |(a_from_period P mu).val - a_from_period P.val mu.val| ≤ gam u (L + 7 / 3) * |a_from_period P.val mu.val| := by
  have h1 := hF.one_le
  have h2 := hF.le_hundred
  refine Within.bound hF ?_ (by linarith) (ku_lt hF (by linarith))
  refine Within.mono hF ((((((Within.ex P).sq hF).mul hF (.ex mu)).div hF (.lit hF 4 (by norm_num))).div hF
    ((Within.pi hF).sq hF)).cbrt hF) ?_
  linarith

theorem C67_semiparameter (h mu : Rnd F) :
    |(semiparameter h mu).val - semiparameter h.val mu.val| ≤ gam u 2 * |semiparameter h.val mu.val| :=
  ((((Within.ex h).sq hF).div hF (.ex mu)).mono hF (by norm_num)).bound hF (by norm_num) (ku_lt hF (by norm_num))

theorem C67_mean_motion (P : Rnd F) : |(mean_motion P).val - mean_motion P.val| ≤ gam u 3 * |mean_motion P.val| :=
  ((((Within.lit hF 2 (by norm_num)).mul hF (.pi hF)).div hF (.ex P)).mono hF (by norm_num)).bound hF (by norm_num)
    (ku_lt hF (by norm_num))

theorem C67_radii (p e : Rnd F) :
    |(radius_periapsis p e).val - radius_periapsis p.val e.val| ≤ gam u 2 * |radius_periapsis p.val e.val| ∧
    |(radius_apoapsis p e).val - radius_apoapsis p.val e.val| ≤ gam u 2 * |radius_apoapsis p.val e.val| := by
  have h1 : Within u 1 (((1 : ℕ) : Rnd F) + e).val (((1 : ℕ) : ℝ) + e.val) := by
    have := Within.add_exact hF ((1 : ℕ) : Rnd F) e
    rwa [Rnd.val_natCast, hF.lit 1 (by norm_num)] at this
  have h2 : Within u 1 (((1 : ℕ) : Rnd F) - e).val (((1 : ℕ) : ℝ) - e.val) := by
    have := Within.sub_exact hF ((1 : ℕ) : Rnd F) e
    rwa [Rnd.val_natCast, hF.lit 1 (by norm_num)] at this
  exact ⟨(((Within.ex p).div hF h1).mono hF (by norm_num)).bound hF (by norm_num) (ku_lt hF (by norm_num)),
    (((Within.ex p).div hF h2).mono hF (by norm_num)).bound hF (by norm_num) (ku_lt hF (by norm_num))⟩

/-- `1 - e**2`. -/
theorem near_one_sub_sq (e : Rnd F) :
    Near u 2 (1 + e.val ^ 2) (((1 : ℕ) : Rnd F) - e ^ 2).val (1 - e.val ^ 2) := by
  have := ((Within.lit hF 1 (by norm_num)).near hF).sub hF (((Within.ex e).sq hF).near hF)
  rw [Nat.cast_one, abs_one, abs_of_nonneg (sq_nonneg _)] at this
  exact this.mono hF (by norm_num) le_rfl

/-- `a (1 - e²)` and `p / (1 - e²)`: the relative error is amplified by `(1 + e²)/|1 - e²|`. -/
theorem C67_ae_pe (a e : Rnd F) {c : ℝ} (he : e.val ^ 2 ≠ 1) (hc : 1 + e.val ^ 2 ≤ c * |1 - e.val ^ 2|)
    (hs : 10 * c * u ≤ 1) :
    |(semipara_from_ae a e).val - semipara_from_ae a.val e.val| ≤ gam u (4 * c + 1) * |semipara_from_ae a.val e.val| ∧
    |(a_from_pe a e).val - a_from_pe a.val e.val| ≤ gam u (4 * c + 1) * |a_from_pe a.val e.val| := by
  have hne : 1 - e.val ^ 2 ≠ 0 := sub_ne_zero.2 (Ne.symm he)
  have hw := (near_one_sub_sq hF e).within hF (by norm_num) hne hc (by linarith)
  have hc1 : 0 ≤ 2 * c * 2 := hw.k_nonneg hF.u_pos hF.lt_one
  have hlt : (4 * c + 1) * u < 1 := by linarith [hF.u_small]
  have e1 : (1 : ℝ) - e.val ^ 2 = ((1 : ℕ) : ℝ) - e.val ^ 2 := by simp
  rw [e1] at hw
  refine ⟨Within.bound hF (((Within.ex a).mul hF hw).mono hF (by linarith)) (by linarith) hlt,
    Within.bound hF (((Within.ex a).div hF hw).mono hF (by linarith)) (by linarith) hlt⟩

/-- `1 + e cos f`. -/
theorem near_one_add_cos (e f : Rnd F) :
    Near u (L + 2) (1 + |e.val * Real.cos f.val|) (((1 : ℕ) : Rnd F) + e * JFun.cos f).val
      (1 + e.val * Real.cos f.val) := by
  have h1 := hF.one_le
  have hc : Within u L (JFun.cos f).val (Real.cos f.val) := hF.cos _
  have := ((Within.lit hF 1 (by norm_num)).near hF).add hF (((Within.ex e).mul hF hc).near hF)
  rw [Nat.cast_one, abs_one] at this
  refine this.mono hF ?_ le_rfl
  simp only [max_def]; split_ifs <;> linarith

/-- The orbit equation; `c = 1` on the near side (`e cos f ≥ 0`), `(1 + e)/(1 - e)` always suffices on an ellipse. -/
theorem C67_equ_of_orbit (p e f : Rnd F) {c : ℝ} (h0 : 1 + e.val * Real.cos f.val ≠ 0)
    (hc : 1 + |e.val * Real.cos f.val| ≤ c * |1 + e.val * Real.cos f.val|) (hs : 5 * (c * (L + 2) * u) ≤ 1) :
    |(equ_of_orbit p e f).val - equ_of_orbit p.val e.val f.val| ≤
      gam u (2 * c * (L + 2) + 1) * |equ_of_orbit p.val e.val f.val| := by
  have h1 := hF.one_le
  have hw := (near_one_add_cos hF e f).within hF (by linarith) h0 hc (by linarith)
  have hk := hw.k_nonneg hF.u_pos hF.lt_one
  have e1 : (1 : ℝ) + e.val * Real.cos f.val = ((1 : ℕ) : ℝ) + e.val * Real.cos f.val := by simp
  rw [e1] at hw
  exact Within.bound hF (((Within.ex p).div hF hw).mono hF (by linarith)) (by linarith) (by linarith [hF.u_small])

theorem C67_equ_of_orb_uvi (U0 U1 U2 r0 s0 : Rnd F) :
    |(equ_of_orb_uvi U0 U1 U2 r0 s0).val - equ_of_orb_uvi U0.val U1.val U2.val r0.val s0.val| ≤
      gam u 3 * (|r0.val * U0.val| + |s0.val * U1.val| + |U2.val|) := by
  refine Near.bound hF ?_ (by norm_num) (ku_lt hF (by norm_num))
  exact (((((Within.ex r0).mul hF (.ex U0)).near hF).add hF (((Within.ex s0).mul hF (.ex U1)).near hF)).add hF
    (exN hF U2)).mono hF (by norm_num) le_rfl

/-! ### Vectors -/

/-- The real vector represented. -/
def V3.re (a : V3 (Rnd F)) : V3 ℝ := ⟨a.x.val, a.y.val, a.z.val⟩

theorem within_norm (a : V3 (Rnd F)) : Within u (5 / 2) (V3.norm a).val (V3.norm a.re) := by
  have hx : Within u 1 (a.x * a.x).val (a.x.val * a.x.val) := ((Within.ex a.x).mul hF (.ex a.x)).mono hF (by norm_num)
  have hy : Within u 1 (a.y * a.y).val (a.y.val * a.y.val) := ((Within.ex a.y).mul hF (.ex a.y)).mono hF (by norm_num)
  have hz : Within u 1 (a.z * a.z).val (a.z.val * a.z.val) := ((Within.ex a.z).mul hF (.ex a.z)).mono hF (by norm_num)
  exact (((hx.add hF hy (mul_self_nonneg _) (mul_self_nonneg _)).add hF hz
    (add_nonneg (mul_self_nonneg _) (mul_self_nonneg _)) (mul_self_nonneg _)).sqrt hF).mono hF (by norm_num)

theorem C67_norm (a : V3 (Rnd F)) : |(V3.norm a).val - V3.norm a.re| ≤ gam u (5 / 2) * V3.norm a.re := by
  have := (within_norm hF a).bound hF (by norm_num) (ku_lt hF (by norm_num))
  rwa [abs_of_nonneg (V3.norm_nonneg _)] at this

/-- Sum of the magnitudes of the terms of a scalar product. -/
def V3.adot (a b : V3 ℝ) : ℝ := |a.x * b.x| + |a.y * b.y| + |a.z * b.z|

omit hF in
theorem V3.adot_le (a b : V3 ℝ) : V3.adot a b ≤ V3.norm a * V3.norm b := by
  have h := (le_abs_self _).trans (V3.abs_dot_le ⟨|a.x|, |a.y|, |a.z|⟩ ⟨|b.x|, |b.y|, |b.z|⟩)
  simpa [V3.adot, V3.dot, V3.norm, abs_mul] using h

theorem near_dot (a b : V3 (Rnd F)) : Near u 3 (V3.adot a.re b.re) (V3.dot a b).val (V3.dot a.re b.re) :=
  ((((((Within.ex a.x).mul hF (.ex b.x)).near hF).add hF (((Within.ex a.y).mul hF (.ex b.y)).near hF))).add hF
    (((Within.ex a.z).mul hF (.ex b.z)).near hF)).mono hF (by norm_num) le_rfl

theorem C67_dot (a b : V3 (Rnd F)) :
    |(V3.dot a b).val - V3.dot a.re b.re| ≤ gam u 3 * (V3.norm a.re * V3.norm b.re) :=
  ((near_dot hF a b).mono hF le_rfl (V3.adot_le _ _)).bound hF (by norm_num) (ku_lt hF (by norm_num))

theorem C67_angular_momentum (r v : V3 (Rnd F)) :
    let H := angular_momentum r v
    let h := angular_momentum r.re v.re
    |H.x.val - h.x| ≤ gam u 2 * (|r.y.val * v.z.val| + |r.z.val * v.y.val|) ∧
    |H.y.val - h.y| ≤ gam u 2 * (|r.z.val * v.x.val| + |r.x.val * v.z.val|) ∧
    |H.z.val - h.z| ≤ gam u 2 * (|r.x.val * v.y.val| + |r.y.val * v.x.val|) := by
  have key : ∀ a b c d : Rnd F, |(a * b - c * d).val - (a.val * b.val - c.val * d.val)| ≤
      gam u 2 * (|a.val * b.val| + |c.val * d.val|) := fun a b c d =>
    (((((Within.ex a).mul hF (.ex b)).near hF).sub hF (((Within.ex c).mul hF (.ex d)).near hF)).mono hF (by norm_num)
      le_rfl).bound hF (by norm_num) (ku_lt hF (by norm_num))
  exact ⟨key _ _ _ _, key _ _ _ _, key _ _ _ _⟩

/-! ### Energy, semimajor axis, eccentricity -/

/-- `2/r - v²/mu`. -/
theorem near_recip_a (r v mu : Rnd F) :
    Near u 3 (2 / |r.val| + v.val ^ 2 / |mu.val|) (((2 : ℕ) : Rnd F) / r - v ^ 2 / mu).val
      (2 / r.val - v.val ^ 2 / mu.val) := by
  have h1 := (((Within.lit hF 2 (by norm_num)).div hF (.ex r)).near hF).sub hF
    ((((Within.ex v).sq hF).div hF (.ex mu)).near hF)
  rw [abs_div, abs_div, Nat.cast_two, abs_two, abs_of_nonneg (sq_nonneg v.val)] at h1
  exact h1.mono hF (by norm_num) le_rfl

/-- The sign of `2/r - v²/mu`, i.e. the type of conic, is right unless the orbit is parabolic within the rounding error. -/
theorem C67_conic (r v mu : Rnd F)
    (h : gam u 3 * (2 / |r.val| + v.val ^ 2 / |mu.val|) < |2 / r.val - v.val ^ 2 / mu.val|) :
    (0 < (semimajor_axis r v mu).val ↔ 0 < semimajor_axis r.val v.val mu.val) ∧
    ((semimajor_axis r v mu).val < 0 ↔ semimajor_axis r.val v.val mu.val < 0) := by
  have hb := (near_recip_a hF r v mu).bound hF (by norm_num) (ku_lt hF (by norm_num))
  have hw : Within u 1 (semimajor_axis r v mu).val (1 / (((2 : ℕ) : Rnd F) / r - v ^ 2 / mu).val) := by
    have := (Within.lit hF 1 (by norm_num)).div hF (.ex (((2 : ℕ) : Rnd F) / r - v ^ 2 / mu))
    rw [Nat.cast_one] at this
    exact this.mono hF (by norm_num)
  set X := (((2 : ℕ) : Rnd F) / r - v ^ 2 / mu).val with hX
  have e : semimajor_axis r.val v.val mu.val = 1 / (2 / r.val - v.val ^ 2 / mu.val) := by
    simp [semimajor_axis]
  rw [e]
  set x := 2 / r.val - v.val ^ 2 / mu.val with hx
  have hlt := lt_of_le_of_lt hb h
  have hpos : 0 < X ↔ 0 < x := by
    rcases abs_cases x with ⟨h1, h2⟩ | ⟨h1, h2⟩ <;> rcases abs_lt.1 hlt with ⟨h3, h4⟩ <;>
      constructor <;> intro <;> linarith
  have hneg : X < 0 ↔ x < 0 := by
    rcases abs_cases x with ⟨h1, h2⟩ | ⟨h1, h2⟩ <;> rcases abs_lt.1 hlt with ⟨h3, h4⟩ <;>
      constructor <;> intro <;> linarith
  refine ⟨?_, ?_⟩
  · rw [hw.pos_iff, one_div_pos, one_div_pos, hpos]
  · rw [← neg_pos, hw.neg.pos_iff, neg_pos, one_div_neg, one_div_neg, hneg]

/-- Semimajor axis: the condition number is `(2/r + v²/mu) / |2/r - v²/mu|`. -/
theorem C67_semimajor_axis (r v mu : Rnd F) {c : ℝ} (h0 : 2 / r.val - v.val ^ 2 / mu.val ≠ 0)
    (hc : 2 / |r.val| + v.val ^ 2 / |mu.val| ≤ c * |2 / r.val - v.val ^ 2 / mu.val|) (hs : 15 * c * u ≤ 1) :
    |(semimajor_axis r v mu).val - semimajor_axis r.val v.val mu.val| ≤
      gam u (6 * c + 1) * |semimajor_axis r.val v.val mu.val| := by
  have hw := (near_recip_a hF r v mu).within hF (by norm_num) h0 hc (by linarith)
  have hk := hw.k_nonneg hF.u_pos hF.lt_one
  have e : (2 : ℝ) / r.val - v.val ^ 2 / mu.val = ((2 : ℕ) : ℝ) / r.val - v.val ^ 2 / mu.val := by simp
  rw [e] at hw
  exact Within.bound hF (((Within.lit hF 1 (by norm_num)).div hF hw).mono hF (by linarith)) (by linarith)
    (by linarith [hF.u_small])

/-- A component of `a × (b × c) / mu - r / |r|`. -/
theorem near_ecc (a b c d p q w mu : Rnd F) (r : V3 (Rnd F)) (i : Rnd F) :
    Near u 6 ((|a.val| * (|b.val * c.val| + |d.val * p.val|) + |q.val| * (|w.val * p.val| + |b.val * i.val|)) / |mu.val|
        + |b.val| / V3.norm r.re)
      ((a * (b * c - d * p) - q * (w * p - b * i)) / mu - b / V3.norm r).val
      ((a.val * (b.val * c.val - d.val * p.val) - q.val * (w.val * p.val - b.val * i.val)) / mu.val
        - b.val / V3.norm r.re) := by
  have cr : ∀ a b c d : Rnd F, Near u 2 (|a.val * b.val| + |c.val * d.val|) (a * b - c * d).val
      (a.val * b.val - c.val * d.val) := fun a b c d =>
    ((((Within.ex a).mul hF (.ex b)).near hF).sub hF (((Within.ex c).mul hF (.ex d)).near hF)).mono hF (by norm_num) le_rfl
  have h1 := ((((exN hF a).mul hF (cr b c d p)).sub hF ((exN hF q).mul hF (cr w p b i))).div hF (.ex mu)).sub hF
    (((Within.ex b).div hF (within_norm hF r)).near hF)
  rw [abs_div (b.val), abs_of_nonneg (V3.norm_nonneg r.re)] at h1
  exact h1.mono hF (by norm_num) le_rfl

omit hF in
theorem ecc_mag {b d w p a q mu R V : ℝ} (hR : 0 ≤ R) (h1 : b ^ 2 + d ^ 2 + w ^ 2 = R ^ 2)
    (h2 : p ^ 2 + a ^ 2 + q ^ 2 = V ^ 2) (hV : 0 ≤ V) :
    (|a| * (|b * a| + |d * p|) + |q| * (|w * p| + |b * q|)) / |mu| + |b| / R ≤ 2 * R * V ^ 2 / |mu| + 1 := by
  have hb : |b| ≤ R := abs_le_of_sq_le_sq (by nlinarith [sq_nonneg d, sq_nonneg w]) hR
  have hp : |p| ≤ V := abs_le_of_sq_le_sq (by nlinarith [sq_nonneg a, sq_nonneg q]) hV
  have hs : |a| * |d| + |q| * |w| ≤ R * V := by
    refine abs_le_of_sq_le_sq' ?_ (by positivity) |>.2
    have e1 := sq_abs a
    have e2 := sq_abs d
    have e3 := sq_abs q
    have e4 := sq_abs w
    have : (|a| * |d| + |q| * |w|) ^ 2 ≤ (|a| ^ 2 + |q| ^ 2) * (|d| ^ 2 + |w| ^ 2) := by
      nlinarith [sq_nonneg (|a| * |w| - |q| * |d|)]
    rw [e1, e2, e3, e4] at this
    rw [mul_pow, ← h1, ← h2]
    nlinarith [sq_nonneg p, sq_nonneg b, sq_nonneg a, sq_nonneg q, sq_nonneg d, sq_nonneg w, mul_nonneg (sq_nonneg p) (sq_nonneg d), mul_nonneg (sq_nonneg p) (sq_nonneg w), mul_nonneg (sq_nonneg p) (sq_nonneg b), mul_nonneg (sq_nonneg a) (sq_nonneg b), mul_nonneg (sq_nonneg q) (sq_nonneg b)]
  have hn : |a| * (|b * a| + |d * p|) + |q| * (|w * p| + |b * q|) ≤ 2 * R * V ^ 2 := by
    have e : |a| * (|b * a| + |d * p|) + |q| * (|w * p| + |b * q|) =
        |b| * (|a| ^ 2 + |q| ^ 2) + |p| * (|a| * |d| + |q| * |w|) := by
      rw [abs_mul, abs_mul, abs_mul, abs_mul]; ring
    rw [e, sq_abs, sq_abs]
    have i1 : |b| * (a ^ 2 + q ^ 2) ≤ R * V ^ 2 := by
      gcongr; nlinarith [sq_nonneg p]
    have i2 : |p| * (|a| * |d| + |q| * |w|) ≤ V * (R * V) := by gcongr
    nlinarith
  gcongr
  exact div_le_one_of_le₀ hb hR

omit hF in
theorem V3.norm_sq' (a : V3 ℝ) : a.x ^ 2 + a.y ^ 2 + a.z ^ 2 = V3.norm a ^ 2 := by
  rw [V3.norm, sqrt_real, Real.sq_sqrt (V3.dot_self_nonneg a), V3.dot]; ring

/-- Eccentricity vector: the absolute error of each component is at most `γ_6 (2 r v²/mu + 1)`, so at most `5 γ_6` on
every closed orbit. Small eccentricities therefore have no relative accuracy. -/
theorem C67_eccentricity_vector (r v : V3 (Rnd F)) (mu : Rnd F) :
    let E := eccentricity_vector r v mu
    let e := eccentricity_vector r.re v.re mu.val
    let m := 2 * V3.norm r.re * V3.norm v.re ^ 2 / |mu.val| + 1
    |E.x.val - e.x| ≤ gam u 6 * m ∧ |E.y.val - e.y| ≤ gam u 6 * m ∧ |E.z.val - e.z| ≤ gam u 6 * m := by
  intro E e m
  have h1 := V3.norm_sq' r.re
  have h2 := V3.norm_sq' v.re
  have hr := V3.norm_nonneg r.re
  have hv := V3.norm_nonneg v.re
  have fin : ∀ {M a x : ℝ}, Near u 6 M a x → M ≤ m → |a - x| ≤ gam u 6 * m := fun hn hM =>
    (hn.mono hF le_rfl hM).bound hF (by norm_num) (ku_lt hF (by norm_num))
  refine ⟨fin (near_ecc hF v.y r.x v.y r.y v.x v.z r.z mu r v.z) (ecc_mag hr ?_ ?_ hv),
    fin (near_ecc hF v.z r.y v.z r.z v.y v.x r.x mu r v.x) (ecc_mag hr ?_ ?_ hv),
    fin (near_ecc hF v.x r.z v.x r.x v.z v.y r.y mu r v.y) (ecc_mag hr ?_ ?_ hv)⟩ <;>
  simp only [V3.re] at h1 h2 ⊢ <;> linarith

/-! ### `_lagrange.py`, `sigma_fn`, `generalized_anomaly` -/

theorem near_sigma (r v : V3 (Rnd F)) (mu : Rnd F) :
    Near u 5 (V3.adot r.re v.re / Real.sqrt mu.val) (sigma_fn r v mu).val (sigma_fn r.re v.re mu.val) := by
  have := (near_dot hF r v).div hF ((Within.ex mu).sqrt hF)
  rw [abs_of_nonneg (Real.sqrt_nonneg _)] at this
  exact this.mono hF (by norm_num) le_rfl

theorem C67_sigma_fn (r v : V3 (Rnd F)) (mu : Rnd F) :
    |(sigma_fn r v mu).val - sigma_fn r.re v.re mu.val| ≤
      gam u 5 * (V3.norm r.re * V3.norm v.re / Real.sqrt mu.val) :=
  ((near_sigma hF r v mu).mono hF le_rfl (div_le_div_of_nonneg_right (V3.adot_le _ _) (Real.sqrt_nonneg _))).bound hF
    (by norm_num) (ku_lt hF (by norm_num))

theorem C67_lagrange (U1 U2 r r0 s0 mu : Rnd F) :
    |(lagrange_F U2 r0).val - lagrange_F U2.val r0.val| ≤ gam u 2 * (1 + |U2.val / r0.val|) ∧
    |(lagrange_G U1 U2 s0 r0 mu).val - lagrange_G U1.val U2.val s0.val r0.val mu.val| ≤
      gam u 4 * ((|r0.val * U1.val| + |s0.val * U2.val|) / Real.sqrt mu.val) ∧
    |(lagrange_Ft U1 r r0 mu).val - lagrange_Ft U1.val r.val r0.val mu.val| ≤
      gam u 4 * |lagrange_Ft U1.val r.val r0.val mu.val| ∧
    |(lagrange_Gt U2 r).val - lagrange_Gt U2.val r.val| ≤ gam u 2 * (1 + |U2.val / r.val|) := by
  have hF1 : ∀ a b : Rnd F, Near u 2 (1 + |a.val / b.val|) (((1 : ℕ) : Rnd F) - a / b).val (((1 : ℕ) : ℝ) - a.val / b.val) := by
    intro a b
    have := ((Within.lit hF 1 (by norm_num)).near hF).sub hF (((Within.ex a).div hF (.ex b)).near hF)
    rw [Nat.cast_one, abs_one] at this
    rw [Nat.cast_one]
    exact this.mono hF (by norm_num) le_rfl
  refine ⟨(hF1 U2 r0).bound hF (by norm_num) (ku_lt hF (by norm_num)), ?_, ?_,
    (hF1 U2 r).bound hF (by norm_num) (ku_lt hF (by norm_num))⟩
  · have := ((((Within.ex r0).mul hF (.ex U1)).near hF).add hF (((Within.ex s0).mul hF (.ex U2)).near hF)).div hF
      ((Within.ex mu).sqrt hF)
    rw [abs_of_nonneg (Real.sqrt_nonneg _)] at this
    exact (this.mono hF (by norm_num) le_rfl).bound hF (by norm_num) (ku_lt hF (by norm_num))
  · have h1 : Within u 1 (-JFun.sqrt mu).val (-Real.sqrt mu.val) := (((Within.ex mu).sqrt hF).neg).mono hF (by norm_num)
    exact Within.bound hF ((((h1.div hF (.ex r)).mul hF (.ex U1)).div hF (.ex r0)).mono hF (by norm_num)) (by norm_num)
      (ku_lt hF (by norm_num))

theorem C67_generalized_anomaly (al s s0 t mu : Rnd F) :
    |(generalized_anomaly al s s0 t mu).val - generalized_anomaly al.val s.val s0.val t.val mu.val| ≤
      gam u 5 * (|al.val * Real.sqrt mu.val * t.val| + |s.val| + |s0.val|) :=
  ((((((((Within.ex al).mul hF ((Within.ex mu).sqrt hF)).mul hF (.ex t)).near hF).add hF (exN hF s)).sub hF
    (exN hF s0))).mono hF (by norm_num) le_rfl).bound hF (by norm_num) (ku_lt hF (by norm_num))

/-! ### `_kep_equ.py` -/

theorem within_cos (x : Rnd F) : Within u L (JFun.cos x).val (Real.cos x.val) := hF.cos _
theorem within_sin (x : Rnd F) : Within u L (JFun.sin x).val (Real.sin x.val) := hF.sin _
theorem within_cosh (x : Rnd F) : Within u L (JFun.cosh x).val (Real.cosh x.val) := hF.cosh _
theorem within_sinh (x : Rnd F) : Within u L (JFun.sinh x).val (Real.sinh x.val) := hF.sinh _

theorem near_kepler_elps (E e M : Rnd F) :
    Near u (L + 3) (|E.val| + |e.val * Real.sin E.val| + |M.val|) (kepler_equ_elps E e M).val
      (kepler_equ_elps E.val e.val M.val) := by
  have h1 := hF.one_le
  refine (((exN hF E).sub hF (((Within.ex e).mul hF (within_sin hF E)).near hF)).sub hF (exN hF M)).mono hF ?_ le_rfl
  simp only [max_def]; split_ifs <;> linarith

theorem C67_kepler_elps (E e M : Rnd F) :
    |(kepler_equ_elps E e M).val - kepler_equ_elps E.val e.val M.val| ≤
      gam u (L + 3) * (|E.val| + |e.val * Real.sin E.val| + |M.val|) := by
  have h1 := hF.one_le
  have h2 := hF.le_hundred
  exact (near_kepler_elps hF E e M).bound hF (by linarith) (ku_lt hF (by linarith))

theorem near_dE (E e : Rnd F) :
    Near u (L + 2) (1 + |e.val * Real.cos E.val|) (dE E e).val (dE E.val e.val) := by
  have h1 := hF.one_le
  have := ((Within.lit hF 1 (by norm_num)).near hF).sub hF (((Within.ex e).mul hF (within_cos hF E)).near hF)
  rw [Nat.cast_one, abs_one] at this
  have e1 : dE E.val e.val = 1 - e.val * Real.cos E.val := by simp [dE]
  rw [e1]
  refine this.mono hF ?_ le_rfl
  simp only [max_def]; split_ifs <;> linarith

theorem near_kepler_hypb (H e N : Rnd F) :
    Near u (L + 3) (|e.val * Real.sinh H.val| + |H.val| + |N.val|) (kepler_equ_hypb H e N).val
      (kepler_equ_hypb H.val e.val N.val) := by
  have h1 := hF.one_le
  refine (((((Within.ex e).mul hF (within_sinh hF H)).near hF).sub hF (exN hF H)).sub hF (exN hF N)).mono hF ?_ le_rfl
  simp only [max_def]; split_ifs <;> linarith

theorem C67_kepler_hypb (H e N : Rnd F) :
    |(kepler_equ_hypb H e N).val - kepler_equ_hypb H.val e.val N.val| ≤
      gam u (L + 3) * (|e.val * Real.sinh H.val| + |H.val| + |N.val|) := by
  have h1 := hF.one_le
  have h2 := hF.le_hundred
  exact (near_kepler_hypb hF H e N).bound hF (by linarith) (ku_lt hF (by linarith))

theorem near_dH (H e : Rnd F) :
    Near u (L + 2) (|e.val * Real.cosh H.val| + 1) (dH H e).val (dH H.val e.val) := by
  have h1 := hF.one_le
  have := (((Within.ex e).mul hF (within_cosh hF H)).near hF).sub hF ((Within.lit hF 1 (by norm_num)).near hF)
  rw [Nat.cast_one, abs_one] at this
  have e1 : dH H.val e.val = e.val * Real.cosh H.val - 1 := by simp [dH]
  rw [e1]
  refine this.mono hF ?_ le_rfl
  simp only [max_def]; split_ifs <;> linarith

theorem C67_slopes (E e : Rnd F) :
    |(dE E e).val - dE E.val e.val| ≤ gam u (L + 2) * (1 + |e.val * Real.cos E.val|) ∧
    |(dH E e).val - dH E.val e.val| ≤ gam u (L + 2) * (|e.val * Real.cosh E.val| + 1) := by
  have h1 := hF.one_le
  have h2 := hF.le_hundred
  exact ⟨(near_dE hF E e).bound hF (by linarith) (ku_lt hF (by linarith)),
    (near_dH hF E e).bound hF (by linarith) (ku_lt hF (by linarith))⟩

theorem C67_mean_anomaly (a t mu : Rnd F) :
    |(mean_anomaly_elps a t mu).val - mean_anomaly_elps a.val t.val mu.val| ≤
      gam u (7 / 2) * |mean_anomaly_elps a.val t.val mu.val| ∧
    |(mean_anomaly_hypb a t mu).val - mean_anomaly_hypb a.val t.val mu.val| ≤
      gam u (7 / 2) * |mean_anomaly_hypb a.val t.val mu.val| := by
  have h3 := (Within.ex a).pow3 hF
  have h4 : Within u (3 * 0 + 2) (-a ^ 3).val (-a.val ^ 3) := h3.neg
  exact ⟨Within.bound hF (((((Within.ex mu).div hF h3).sqrt hF).mul hF (.ex t)).mono hF (by norm_num)) (by norm_num)
      (ku_lt hF (by norm_num)),
    Within.bound hF (((((Within.ex mu).div hF h4).sqrt hF).mul hF (.ex t)).mono hF (by norm_num)) (by norm_num)
      (ku_lt hF (by norm_num))⟩

end
end Adx
