import Verif.Props.C67c
import Verif.Lemmas.AnglePert
import Verif.Lemmas.Formats

/-! # C67: rounding errors of the angles of `rv2coe`

Condition numbers: `|r| |v| / |h|` (nearly radial motion), `|h| / |N| = 1 / sin i` (nearly equatorial orbits) and `1 / e`
(nearly circular orbits). -/

namespace Adx
open Spec

/-- `a / |a|` against `b / |b|`. -/
theorem unit_pert (a b : V3 ℝ) (hb : 0 < V3.norm b) :
    |a.z / V3.norm a - b.z / V3.norm b| ≤ 2 * (V3.norm (a - b) / V3.norm b) := by
  have hz : ∀ c : V3 ℝ, |c.z| ≤ V3.norm c := fun c =>
    abs_le_of_sq_le_sq (by rw [← V3.norm_sq']; nlinarith [sq_nonneg c.x, sq_nonneg c.y]) (V3.norm_nonneg c)
  have h1 : |a.z - b.z| ≤ V3.norm (a - b) := hz (a - b)
  have h2 := V3.abs_norm_sub_norm_le a b
  have h3 : |a.z / V3.norm a| ≤ 1 := by
    rw [abs_div, abs_of_nonneg (V3.norm_nonneg a)]; exact div_le_one_of_le₀ (hz a) (V3.norm_nonneg a)
  have e : a.z / V3.norm a * V3.norm a = a.z := by
    rcases eq_or_ne (V3.norm a) 0 with h | h
    · have := hz a
      rw [h] at this
      rw [h, mul_zero]; exact (abs_nonpos_iff.1 this).symm
    · exact div_mul_cancel₀ _ h
  rw [show a.z / V3.norm a - b.z / V3.norm b =
    ((a.z - b.z) - a.z / V3.norm a * (V3.norm a - V3.norm b)) / V3.norm b by
      rw [mul_sub, e]; field_simp; ring, abs_div, abs_of_pos hb, mul_div_assoc']
  gcongr
  refine (abs_sub _ _).trans ?_
  rw [abs_mul]
  have := mul_le_mul h3 h2 (abs_nonneg _) zero_le_one
  linarith

section
variable {F : Fp} {u L : ℝ} (hF : StdModel F u L)
include hF

/-- What the cosine of the computed inclination is, against the exact one. -/
theorem incl_arg (r v : V3 (Rnd F)) (hh : 0 < V3.norm (V3.cross r.re v.re)) :
    |((V3.cross r v).z / V3.norm (V3.cross r v)).val - (V3.cross r.re v.re).z / V3.norm (V3.cross r.re v.re)| ≤
      5 * gam u (7 / 2) * (V3.norm r.re * V3.norm v.re / V3.norm (V3.cross r.re v.re)) := by
  set A := V3.cross r v with hA
  set a := V3.cross r.re v.re with ha
  set m := V3.norm r.re * V3.norm v.re with hm
  have hκ : V3.norm a ≤ m := by
    have h1 := V3.norm_nonneg r.re
    have h2 := V3.norm_nonneg v.re
    refine abs_le_of_sq_le_sq' ?_ (by positivity) |>.2
    have e1 : V3.norm a ^ 2 + V3.dot r.re v.re ^ 2 = V3.norm r.re ^ 2 * V3.norm v.re ^ 2 := by
      rw [← V3.norm_sq', ← V3.norm_sq', ← V3.norm_sq']; simp only [ha, V3.cross, V3.dot]; ring
    rw [hm, mul_pow]
    nlinarith [sq_nonneg (V3.dot r.re v.re)]
  have n := nearV_cross hF r v
  have k72 : Near u 2 m A.z.val a.z := n.z
  have g2 : ∀ {x y : ℝ}, Near u 2 m x y → |x - y| ≤ gam u (7 / 2) * m := fun h =>
    (h.mono hF (j := 7 / 2) (by norm_num) le_rfl).bound hF (by norm_num) (ku_lt hF (by norm_num))
  have hg : 0 ≤ gam u (7 / 2) := by
    have := hF.u_pos
    have := ku_lt hF (k := 7 / 2) (by norm_num)
    unfold gam; exact div_nonneg (by positivity) (by linarith)
  have hm0 : 0 < m := hh.trans_le hκ
  have hd : V3.norm (A.re - a) ≤ 2 * (gam u (7 / 2) * m) := by
    have hx : |(A.re - a).x| ≤ gam u (7 / 2) * m := g2 n.x
    have hy : |(A.re - a).y| ≤ gam u (7 / 2) * m := g2 n.y
    have hz : |(A.re - a).z| ≤ gam u (7 / 2) * m := g2 n.z
    refine abs_le_of_sq_le_sq' ?_ (by positivity) |>.2
    rw [← V3.norm_sq', ← sq_abs (A.re - a).x, ← sq_abs (A.re - a).y, ← sq_abs (A.re - a).z]
    nlinarith [pow_le_pow_left₀ (abs_nonneg _) hx 2, pow_le_pow_left₀ (abs_nonneg _) hy 2,
      pow_le_pow_left₀ (abs_nonneg _) hz 2]
  have h1 : |(A.z / V3.norm A).val - A.re.z / V3.norm A.re| ≤ gam u (7 / 2) * 1 := by
    refine ((((Within.ex A.z).div hF (within_norm hF A)).near hF).mono hF (j := 7 / 2) (n := 1) (by norm_num) ?_).bound hF
      (by norm_num) (ku_lt hF (by norm_num))
    have : |A.re.z| ≤ V3.norm A.re :=
      abs_le_of_sq_le_sq (by rw [← V3.norm_sq']; nlinarith [sq_nonneg A.re.x, sq_nonneg A.re.y]) (V3.norm_nonneg _)
    rw [abs_div, abs_of_nonneg (V3.norm_nonneg A.re)]; exact div_le_one_of_le₀ this (V3.norm_nonneg _)
  have h2 := unit_pert A.re a hh
  have h3 : V3.norm (A.re - a) / V3.norm a ≤ 2 * (gam u (7 / 2) * m) / V3.norm a := by gcongr
  have h4 : 1 ≤ m / V3.norm a := (one_le_div hh).2 hκ
  have h5 := abs_sub_le (A.z / V3.norm A).val (A.re.z / V3.norm A.re) (a.z / V3.norm a)
  rw [mul_div_assoc, mul_div_assoc] at h3
  nlinarith [mul_le_mul_of_nonneg_left h4 hg]

/-- Inclination of `rv2coe`: at worst the square root of the rounding unit (and `C67_inclination_lost` shows that this
happens), proportional to it away from the equator. -/
theorem C67_rv2coe_incl (r v : V3 (Rnd F)) (mu : Rnd F) (hh : 0 < V3.norm (V3.cross r.re v.re)) :
    let δ := 5 * gam u (7 / 2) * (V3.norm r.re * V3.norm v.re / V3.norm (V3.cross r.re v.re))
    |(rv2coe r v mu).incl.val - (rv2coe r.re v.re mu.val).incl| ≤ Real.pi * gam u L + Real.pi * Real.sqrt (δ / 2) ∧
    Real.sin (rv2coe r.re v.re mu.val).incl * |(rv2coe r v mu).incl.val - (rv2coe r.re v.re mu.val).incl| ≤
      Real.pi * gam u L + Real.pi * δ := by
  intro δ
  set a := V3.cross r.re v.re with ha
  set c := ((V3.cross r v).z / V3.norm (V3.cross r v)).val with hc
  have e1 : (rv2coe r v mu).incl.val = F.arccos c := rfl
  have e2 : (rv2coe r.re v.re mu.val).incl = Real.arccos (a.z / V3.norm a) := rfl
  have h1 : |F.arccos c - Real.arccos c| ≤ gam u L * Real.pi := by
    have := (hF.arccos c).bound hF hF.one_le (ku_lt hF (by linarith [hF.le_hundred]))
    refine this.trans ?_
    have hu := hF.u_pos
    have := ku_lt hF (k := L) (by linarith [hF.le_hundred])
    have hL := hF.one_le
    have hg : 0 ≤ gam u L := by unfold gam; exact div_nonneg (by positivity) (by linarith)
    gcongr
    rw [abs_of_nonneg (Real.arccos_nonneg _)]; exact Real.arccos_le_pi _
  have hb : |a.z / V3.norm a| ≤ 1 := by
    rw [abs_div, abs_of_pos hh]
    refine div_le_one_of_le₀ (abs_le_of_sq_le_sq ?_ hh.le) hh.le
    rw [← V3.norm_sq']; nlinarith [sq_nonneg a.x, sq_nonneg a.y]
  obtain ⟨p1, p2⟩ := arccos_pert c (a.z / V3.norm a) hb
  have h2 : |c - a.z / V3.norm a| ≤ δ := incl_arg hF r v hh
  have h3 := abs_sub_le (F.arccos c) (Real.arccos c) (Real.arccos (a.z / V3.norm a))
  have hπ := Real.pi_pos
  rw [e1, e2]
  constructor
  · have : Real.sqrt (|c - a.z / V3.norm a| / 2) ≤ Real.sqrt (δ / 2) := Real.sqrt_le_sqrt (by linarith)
    nlinarith
  · set s := Real.sin (Real.arccos (a.z / V3.norm a)) with hs
    have s0 : 0 ≤ s := Real.sin_nonneg_of_nonneg_of_le_pi (Real.arccos_nonneg _) (Real.arccos_le_pi _)
    have s1 : s ≤ 1 := Real.sin_le_one _
    have := mul_le_mul_of_nonneg_left h3 s0
    have h4 := mul_le_mul_of_nonneg_right s1 (abs_nonneg (F.arccos c - Real.arccos c))
    nlinarith

/-- The computed `node_vec`. -/
theorem nearV_node (r v : V3 (Rnd F)) :
    NearV u 5 (V3.norm r.re * V3.norm v.re) (node_vec (V3.cross r v)) (node_vec (V3.cross r.re v.re)) := by
  have n := nearV_cross hF r v
  have z : Near u 0 0 ((0 : ℕ) : Rnd F).val ((0 : ℕ) : ℝ) := by
    simpa using (Within.lit hF 0 (by norm_num)).near hF
  have o : Near u 0 1 ((1 : ℕ) : Rnd F).val ((1 : ℕ) : ℝ) := by
    simpa using (Within.lit hF 1 (by norm_num)).near hF
  set m := V3.norm r.re * V3.norm v.re
  have hm : 0 ≤ m := n.x.m_nonneg
  refine ⟨((z.mul hF n.z).sub hF (o.mul hF n.y)).mono hF ?_ ?_, ((o.mul hF n.x).sub hF (z.mul hF n.z)).mono hF ?_ ?_,
    ((z.mul hF n.y).sub hF (z.mul hF n.x)).mono hF ?_ ?_⟩
  all_goals first | (norm_num; done) | linarith

/-- Wrapping keeps the angle up to a full turn and a few roundings. -/
theorem wrapNeg_near (y x : Rnd F) : ∃ k : ℤ, (k = 0 ∨ k = 1) ∧
    |(wrapNeg (JFun.arctan2 y x)).val - Complex.arg ⟨x.val, y.val⟩ - 2 * Real.pi * k| ≤ gam u (L + 3) * (3 * Real.pi) := by
  have hπ := Real.pi_pos
  have hL := hF.one_le
  have hku := ku_lt hF (k := L + 3) (by linarith [hF.le_hundred])
  have hw : Near u L Real.pi (JFun.arctan2 y x : Rnd F).val (Complex.arg ⟨x.val, y.val⟩) :=
    ((hF.arctan2 y.val x.val).near hF).mono hF le_rfl (Complex.abs_arg_le_pi _)
  unfold wrapNeg
  split_ifs
  · refine ⟨1, .inr rfl, ?_⟩
    have hp := ((Within.lit hF 2 (by norm_num)).mul hF (Within.pi hF)).near hF
    have h2 : |((2 : ℕ) : ℝ) * Real.pi| ≤ 2 * Real.pi := by rw [abs_of_pos (by positivity)]; norm_num
    have := (((hp.mono hF (j := L + 1) (by linarith) h2).add hF (hw.mono hF (j := L + 1) (by linarith) le_rfl)).mono hF
      (j := L + 3) (n := 3 * Real.pi) (by rw [max_self]; linarith) (by linarith)).bound hF (by linarith) hku
    refine le_of_eq_of_le ?_ this
    congr 1; push_cast; ring
  · refine ⟨0, .inl rfl, ?_⟩
    have := (hw.mono hF (j := L + 3) (n := 3 * Real.pi) (by linarith) (by linarith)).bound hF (by linarith) hku
    simpa using this

omit hF in
theorem wrapNeg_real (y x : ℝ) : ∃ k : ℤ, (k = 0 ∨ k = 1) ∧
    wrapNeg (JFun.arctan2 y x) = Complex.arg ⟨x, y⟩ + 2 * Real.pi * k := by
  unfold wrapNeg
  split_ifs
  · exact ⟨1, .inr rfl, by simp [arctan2_real]; ring⟩
  · exact ⟨0, .inl rfl, by simp [arctan2_real]⟩

/-- Right ascension of `rv2coe`, up to a full turn (the two values may be on different sides of the branch cut). -/
theorem C67_rv2coe_raan (r v : V3 (Rnd F)) (mu : Rnd F) (hh : 0 < V3.norm (node_vec (V3.cross r.re v.re))) :
    ∃ k : ℤ, |(rv2coe r v mu).raan.val - (rv2coe r.re v.re mu.val).raan - 2 * Real.pi * k| ≤
      gam u (L + 3) * (3 * Real.pi) +
        2 * Real.pi * gam u 5 * (V3.norm r.re * V3.norm v.re / V3.norm (node_vec (V3.cross r.re v.re))) := by
  have n := nearV_node hF r v
  set A := node_vec (V3.cross r v) with hA
  set a := node_vec (V3.cross r.re v.re) with ha
  set m := V3.norm r.re * V3.norm v.re with hm
  obtain ⟨k1, -, h1⟩ := wrapNeg_near hF A.y A.x
  obtain ⟨k2, -, h2⟩ := wrapNeg_real a.y a.x
  have eN : Real.sqrt (a.x ^ 2 + a.y ^ 2) = V3.norm a := by
    have : a.z = 0 := by simp [ha, node_vec, V3.cross]
    rw [eq_comm, ← Real.sqrt_sq (V3.norm_nonneg a), ← V3.norm_sq', this]; congr 1; ring
  obtain ⟨k3, -, h3⟩ := arg_pert (x := a.x) (y := a.y) (x' := A.x.val) (y' := A.y.val) (by rwa [eN])
  rw [eN] at h3
  have b1 := n.x.bound hF (by norm_num) (ku_lt hF (by norm_num))
  have b2 := n.y.bound hF (by norm_num) (ku_lt hF (by norm_num))
  have h4 : Real.pi * ((|A.x.val - a.x| + |A.y.val - a.y|) / V3.norm a) ≤ 2 * Real.pi * gam u 5 * (m / V3.norm a) := by
    have hπ := Real.pi_pos
    calc _ ≤ Real.pi * ((gam u 5 * m + gam u 5 * m) / V3.norm a) := by gcongr
      _ = _ := by ring
  refine ⟨k1 + k3 - k2, ?_⟩
  have e1 : (rv2coe r v mu).raan.val = (wrapNeg (JFun.arctan2 A.y A.x)).val := rfl
  have e2 : (rv2coe r.re v.re mu.val).raan = wrapNeg (JFun.arctan2 a.y a.x) := rfl
  rw [e1, e2, h2]
  refine le_trans (le_of_eq_of_le ?_ (abs_add_le _ _)) (add_le_add h1 (h3.trans h4))
  congr 1; push_cast; ring

/-- Angles in the upper half plane are not wrapped. -/
theorem wrapNeg_upper {y x : Rnd F} (hy : 0 ≤ y.val) :
    |(wrapNeg (JFun.arctan2 y x)).val - Complex.arg ⟨x.val, y.val⟩| ≤ Real.pi * gam u L := by
  have hL := hF.one_le
  have hku := ku_lt hF (k := L) (by linarith [hF.le_hundred])
  have h0 := Complex.arg_nonneg_iff.2 (show 0 ≤ (⟨x.val, y.val⟩ : ℂ).im from hy)
  have z0 : F.rd 0 = 0 := by simpa using hF.lit 0 (by norm_num)
  have hw := hF.arctan2 y.val x.val
  have hn : ¬ (JFun.lt (JFun.arctan2 y x : Rnd F) ((0 : ℕ) : Rnd F) = true) := by
    simp only [JFun.lt, decide_eq_true_eq, Rnd.val_natCast, Nat.cast_zero, z0, not_lt]
    obtain ⟨θ, -, h2⟩ := hw
    show 0 ≤ F.arctan2 y.val x.val
    rw [h2]; exact mul_nonneg h0 (Real.exp_pos _).le
  unfold wrapNeg
  rw [if_neg hn]
  have := (hw.near hF).mono hF le_rfl (Complex.abs_arg_le_pi _) |>.bound hF hL hku
  rw [mul_comm]; exact this

omit hF in
theorem wrapNeg_real_upper {y x : ℝ} (hy : 0 ≤ y) : wrapNeg (JFun.arctan2 y x) = Complex.arg ⟨x, y⟩ := by
  have h0 := Complex.arg_nonneg_iff.2 (show 0 ≤ (⟨x, y⟩ : ℂ).im from hy)
  unfold wrapNeg
  rw [if_neg]
  · rfl
  · simp only [lt_real, decide_eq_true_eq, Nat.cast_zero, not_lt]; exact h0

/-- The angle between two vectors as both `true_anomaly` and `argument_of_periapsis` compute it. -/
theorem angle_between {A B : V3 (Rnd F)} {a b : V3 ℝ} {k j m n : ℝ} (ha : NearV u k m A a) (hb : NearV u j n B b)
    (h0 : 0 < V3.norm a * V3.norm b) (hkj : k + j + 9 / 2 ≤ 999) :
    |(wrapNeg (JFun.arctan2 (V3.norm (V3.cross A B)) (V3.dot A B))).val -
      wrapNeg (JFun.arctan2 (V3.norm (V3.cross a b)) (V3.dot a b))| ≤
      Real.pi * gam u L + 7 * Real.pi * gam u (k + j + 9 / 2) * (m * n / (V3.norm a * V3.norm b)) := by
  have hπ := Real.pi_pos
  have hA : 0 ≤ (V3.norm (V3.cross A B)).val := by
    obtain ⟨θ, -, h2⟩ := within_norm hF (V3.cross A B)
    rw [h2]; exact mul_nonneg (V3.norm_nonneg _) (Real.exp_pos _).le
  have k0 := ha.x.k0
  have j0 := hb.x.k0
  have hk1 : 1 ≤ k + j + 9 / 2 := by linarith
  have hku := ku_lt hF hkj
  have hmn : 0 ≤ m * n := mul_nonneg ha.x.m_nonneg hb.x.m_nonneg
  have d1 := ((ha.dot hF hb).mono hF (j := k + j + 9 / 2) (by linarith) le_rfl).bound hF hk1 hku
  have d2 := (((ha.cross hF hb).norm hF).mono hF (j := k + j + 9 / 2) (by linarith) le_rfl).bound hF hk1 hku
  have eN : Real.sqrt (V3.dot a b ^ 2 + V3.norm (V3.cross a b) ^ 2) = V3.norm a * V3.norm b := by
    rw [← Real.sqrt_sq h0.le]; congr 1
    rw [mul_pow, ← V3.norm_sq', ← V3.norm_sq', ← V3.norm_sq']; simp only [V3.cross, V3.dot]; ring
  have h1 := wrapNeg_upper hF (x := V3.dot A B) hA
  rw [wrapNeg_real_upper (V3.norm_nonneg _)]
  have h2 := arg_pert_upper (x := V3.dot a b) (y := V3.norm (V3.cross a b)) (x' := (V3.dot A B).val)
    (y' := (V3.norm (V3.cross A B)).val) (by rwa [eN]) (V3.norm_nonneg _) hA
  rw [eN] at h2
  refine (abs_sub_le _ _ _).trans (add_le_add h1 (h2.trans ?_))
  calc _ ≤ Real.pi * ((gam u (k + j + 9 / 2) * (3 * (m * n)) + gam u (k + j + 9 / 2) * (2 * (2 * (m * n)))) /
          (V3.norm a * V3.norm b)) := by gcongr
    _ = _ := by ring

/-- True anomaly of `rv2coe`. -/
theorem C67_rv2coe_true_anom (r v : V3 (Rnd F)) (mu : Rnd F) (hr : 0 < V3.norm r.re)
    (he : 0 < V3.norm (eccentricity_vector r.re v.re mu.val)) :
    |(rv2coe r v mu).true_anom.val - (rv2coe r.re v.re mu.val).true_anom| ≤
      Real.pi * gam u L + 7 * Real.pi * gam u (21 / 2) *
        ((2 * V3.norm r.re * V3.norm v.re ^ 2 / |mu.val| + 1) / V3.norm (eccentricity_vector r.re v.re mu.val)) := by
  have h := angle_between hF (nearV_ecc hF r v mu) (nearV_ex hF r) (mul_pos he hr) (by norm_num)
  rw [mul_div_mul_right _ _ hr.ne', show (6 : ℝ) + 0 + 9 / 2 = 21 / 2 by norm_num] at h
  exact h

/-- Argument of periapsis of `rv2coe`. -/
theorem C67_rv2coe_argp (r v : V3 (Rnd F)) (mu : Rnd F) (hh : 0 < V3.norm (node_vec (V3.cross r.re v.re)))
    (he : 0 < V3.norm (eccentricity_vector r.re v.re mu.val)) :
    |(rv2coe r v mu).argp.val - (rv2coe r.re v.re mu.val).argp| ≤
      Real.pi * gam u L + 7 * Real.pi * gam u (31 / 2) *
        (V3.norm r.re * V3.norm v.re * (2 * V3.norm r.re * V3.norm v.re ^ 2 / |mu.val| + 1) /
          (V3.norm (node_vec (V3.cross r.re v.re)) * V3.norm (eccentricity_vector r.re v.re mu.val))) := by
  have h := angle_between hF (nearV_node hF r v) (nearV_ecc hF r v mu) (mul_pos hh he) (by norm_num)
  rw [show (5 : ℝ) + 6 + 9 / 2 = 31 / 2 by norm_num] at h
  exact h

end

/-- A state that meets the hypotheses: `r = (1, 0, 0)`, `v = (0, 1/2, 1/2)`, `mu = 1`, an orbit with `e = 1/2` and
`i = 45°`. In binary64 all four angles are right to `1e-12` (the right ascension up to a full turn). -/
example : let r : V3 (Rnd F64) := ⟨⟨1⟩, ⟨0⟩, ⟨0⟩⟩; let v : V3 (Rnd F64) := ⟨⟨0⟩, ⟨1 / 2⟩, ⟨1 / 2⟩⟩
    |(rv2coe r v ⟨1⟩).incl.val - (rv2coe r.re v.re 1).incl| ≤ 1e-12 ∧
    (∃ k : ℤ, |(rv2coe r v ⟨1⟩).raan.val - (rv2coe r.re v.re 1).raan - 2 * Real.pi * k| ≤ 1e-12) ∧
    |(rv2coe r v ⟨1⟩).argp.val - (rv2coe r.re v.re 1).argp| ≤ 1e-12 ∧
    |(rv2coe r v ⟨1⟩).true_anom.val - (rv2coe r.re v.re 1).true_anom| ≤ 1e-12 := by
  intro r v
  have hp0 := Real.pi_pos
  have hp4 := Real.pi_le_four
  have nr : V3.norm r.re = 1 := by simp [r, V3.re, V3.norm, V3.dot]
  have nv : V3.norm v.re ^ 2 = 1 / 2 := by rw [← V3.norm_sq']; norm_num [v, V3.re]
  have nv0 := V3.norm_nonneg v.re
  have nv1 : V3.norm v.re ≤ 1 := by nlinarith
  have hN : node_vec (V3.cross r.re v.re) = ⟨1 / 2, 0, 0⟩ := by simp [node_vec, V3.cross, r, v, V3.re]
  have nhalf : ∀ a : V3 ℝ, V3.norm a ^ 2 = 1 / 4 → V3.norm a = 1 / 2 := by
    intro a h
    have h0 := V3.norm_nonneg a
    nlinarith
  have nN : V3.norm (node_vec (V3.cross r.re v.re)) = 1 / 2 := nhalf _ (by rw [hN, ← V3.norm_sq']; norm_num)
  have hH : V3.cross r.re v.re = ⟨0, -1 / 2, 1 / 2⟩ := by simp [V3.cross, r, v, V3.re]; norm_num
  have nH : V3.norm (V3.cross r.re v.re) ^ 2 = 1 / 2 := by rw [← V3.norm_sq', hH]; norm_num
  have nH0 := V3.norm_nonneg (V3.cross r.re v.re)
  have nH1 : 1 / 2 ≤ V3.norm (V3.cross r.re v.re) := by nlinarith
  have ne : V3.norm (eccentricity_vector r.re v.re (1 : ℝ)) = 1 / 2 := by
    refine nhalf _ ?_
    have : eccentricity_vector r.re v.re (1 : ℝ) = ⟨-1 / 2, 0, 0⟩ := by
      simp only [eccentricity_vector, angular_momentum, hH, nr]
      ext <;> simp [V3.cross, r, v, V3.re]; norm_num
    rw [this, ← V3.norm_sq']; norm_num
  have hF := stdModel_F64
  have g : ∀ k : ℝ, 0 ≤ k → k ≤ 16 → 0 ≤ gam ((2 : ℝ) ^ (-53 : ℤ)) k ∧ gam ((2 : ℝ) ^ (-53 : ℤ)) k ≤ k * (2 / 10 ^ 16) := by
    intro k h0 h16
    have hu : (2 : ℝ) ^ (-53 : ℤ) ≤ 12 / 10 ^ 17 := by norm_num
    have hu0 : 0 < (2 : ℝ) ^ (-53 : ℤ) := by positivity
    generalize (2 : ℝ) ^ (-53 : ℤ) = w at hu hu0 ⊢
    have : 1 / 2 < 1 - k * w := by nlinarith
    unfold gam
    refine ⟨div_nonneg (by positivity) (by linarith), ?_⟩
    rw [div_le_iff₀ (by linarith)]
    nlinarith [mul_nonneg h0 hu0.le]
  have g1 := g 1 (by norm_num) (by norm_num)
  have g2 := g (7 / 2) (by norm_num) (by norm_num)
  have g3 := g (1 + 3) (by norm_num) (by norm_num)
  have g4 := g 5 (by norm_num) (by norm_num)
  have g5 := g (21 / 2) (by norm_num) (by norm_num)
  have g6 := g (31 / 2) (by norm_num) (by norm_num)
  have i0 := (C67_rv2coe_incl hF r v ⟨1⟩ (by linarith)).2
  obtain ⟨k, r0⟩ := C67_rv2coe_raan hF r v ⟨1⟩ (by rw [nN]; norm_num)
  have w0 := C67_rv2coe_argp hF r v ⟨1⟩ (by rw [nN]; norm_num) (by rw [ne]; norm_num)
  have f0 := C67_rv2coe_true_anom hF r v ⟨1⟩ (by rw [nr]; norm_num) (by rw [ne]; norm_num)
  simp only [nr, nN, ne, nv, abs_one] at i0 r0 w0 f0
  refine ⟨?_, ⟨k, r0.trans ?_⟩, w0.trans ?_, f0.trans ?_⟩
  · have e2 : (rv2coe r.re v.re (1 : ℝ)).incl = Real.arccos ((V3.cross r.re v.re).z / V3.norm (V3.cross r.re v.re)) := rfl
    have hs : 1 / 2 ≤ Real.sin (rv2coe r.re v.re (1 : ℝ)).incl := by
      rw [e2, Real.sin_arccos, div_pow, nH, hH]
      exact Real.le_sqrt_of_sq_le (by norm_num)
    have hq : 1 * V3.norm v.re / V3.norm (V3.cross r.re v.re) ≤ 2 := by
      rw [div_le_iff₀ (by linarith)]; linarith
    have hq0 : 0 ≤ 1 * V3.norm v.re / V3.norm (V3.cross r.re v.re) := by positivity
    have h1 := mul_le_mul_of_nonneg_right hs (abs_nonneg ((rv2coe r v ⟨1⟩).incl.val - (rv2coe r.re v.re (1 : ℝ)).incl))
    have h2 : 5 * gam ((2 : ℝ) ^ (-53 : ℤ)) (7 / 2) * (1 * V3.norm v.re / V3.norm (V3.cross r.re v.re)) ≤ 1 / 10 ^ 14 := by
      refine (mul_le_mul (mul_le_mul_of_nonneg_left g2.2 (by norm_num)) hq hq0 (by norm_num)).trans ?_
      norm_num
    have h3 := mul_le_mul hp4 h2 (by have := g2.1; positivity) (by norm_num)
    have h4 := mul_le_mul hp4 g1.2 g1.1 (by norm_num)
    have h5 := h1.trans i0
    norm_num at h3 h4 h5 ⊢
    linarith
  · have h3 := mul_le_mul hp4 g3.2 g3.1 (by norm_num)
    have h4 := mul_le_mul hp4 g4.2 g4.1 (by norm_num)
    have h5 := mul_le_mul h4 nv1 nv0 (by norm_num)
    norm_num at h3 h5 ⊢
    linarith
  · have h3 := mul_le_mul hp4 g1.2 g1.1 (by norm_num)
    have h4 := mul_le_mul hp4 g6.2 g6.1 (by norm_num)
    have h5 := mul_le_mul h4 nv1 nv0 (by norm_num)
    norm_num at h3 h5 ⊢
    linarith
  · have h3 := mul_le_mul hp4 g1.2 g1.1 (by norm_num)
    have h4 := mul_le_mul hp4 g5.2 g5.1 (by norm_num)
    norm_num at h3 h4 ⊢
    linarith

end Adx
