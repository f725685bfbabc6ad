import Verif.Lemmas.Elements

/-! # C32, C33, C34: classical elements and states -/

namespace Adx
open V3 Spec

section
variable {p e f mu : ℝ} (hp : 0 < p) (hmu : 0 < mu) (hf : 0 < 1 + e * Real.cos f) (i Ω ω : ℝ)
include hp hmu hf

/-- C32: the state returned by `coe2rv` lies at distance `p/(1+e cos f)` at angle `ω + f` from the node in the
plane with pole `poleDir i Ω`, has angular momentum `√(mu p)` along that pole, the eccentricity vector has
length `e` at angle `ω` from the node, and the radial velocity is `√(mu/p) e sin f`. -/
theorem C32_geometry :
    (coe2rv p e i Ω ω f mu).1 = (p / (1 + e * Real.cos f)) • inPlane i Ω (ω + f) ∧
    angular_momentum (coe2rv p e i Ω ω f mu).1 (coe2rv p e i Ω ω f mu).2
      = Real.sqrt (mu * p) • poleDir i Ω ∧
    eccentricity_vector (coe2rv p e i Ω ω f mu).1 (coe2rv p e i Ω ω f mu).2 mu = e • inPlane i Ω ω ∧
    dot (coe2rv p e i Ω ω f mu).1 (coe2rv p e i Ω ω f mu).2
      = p / (1 + e * Real.cos f) * (Real.sqrt (mu / p) * (e * Real.sin f)) := by
  have hR := C47_perifocal i Ω ω
  refine ⟨?_, ?_, ?_, ?_⟩
  · simp only [coe2rv, perifocalPos_eq, perifocal_inPlane]
  · simp only [coe2rv, angular_momentum, hR.cross, perifocal_h hp hmu hf, perifocal_pole]
  · simp only [coe2rv, hR.ecc, perifocal_ecc hp hmu hf]
    have := perifocal_inPlane i Ω ω 0 e
    rw [add_zero] at this
    rw [← this]
    congr 1
    ext <;> simp
  · simp only [coe2rv, hR.dot]
    rw [perifocalVel_eq, perifocalPos_eq]; simp only [dot, smul_x, smul_y, smul_z]; ring

/-- C32: the library's own functions of the state give back the radius, `p` and (for `e ≥ 0`) `e`. -/
theorem C32_magnitudes (he : 0 ≤ e) :
    V3.norm (coe2rv p e i Ω ω f mu).1 = equ_of_orbit p e f ∧
    semiparameter (V3.norm (angular_momentum (coe2rv p e i Ω ω f mu).1 (coe2rv p e i Ω ω f mu).2)) mu = p ∧
    V3.norm (eccentricity_vector (coe2rv p e i Ω ω f mu).1 (coe2rv p e i Ω ω f mu).2 mu) = e := by
  obtain ⟨h1, h2, h3, -⟩ := C32_geometry hp hmu hf i Ω ω
  have hpos : 0 < p / (1 + e * Real.cos f) := by positivity
  refine ⟨?_, ?_, ?_⟩
  · rw [h1, norm_smul, norm_inPlane, abs_of_pos hpos, mul_one]
    simp [equ_of_orbit]
  · rw [h2, norm_smul, norm_pole, abs_of_nonneg (Real.sqrt_nonneg _), mul_one, semiparameter,
      Real.sq_sqrt (by positivity)]
    field_simp
  · rw [h3, norm_smul, norm_inPlane, abs_of_nonneg he, mul_one]

/-- C33: what `rv2coe ∘ coe2rv` returns, for all elements with `0 < i < π` and `e > 0`: the first four elements
come back; the argument of periapsis and the true anomaly come back folded into `[0, π]`
(`arccos (cos x)` is `x` on `[0, π]` and `2π - x` on `[π, 2π]`). -/
theorem C33_roundtrip_folded (he : 0 < e) (hi0 : 0 < i) (hi1 : i < Real.pi) (hΩ0 : 0 ≤ Ω)
    (hΩ1 : Ω < 2 * Real.pi) :
    rv2coe (coe2rv p e i Ω ω f mu).1 (coe2rv p e i Ω ω f mu).2 mu
      = ⟨p, e, i, Ω, Real.arccos (Real.cos ω), Real.arccos (Real.cos f)⟩ := by
  obtain ⟨h1, h2, h3, -⟩ := C32_geometry hp hmu hf i Ω ω
  obtain ⟨-, m2, m3⟩ := C32_magnitudes hp hmu hf i Ω ω he.le
  have hsi : 0 < Real.sin i := Real.sin_pos_of_pos_of_lt_pi hi0 hi1
  have hw : 0 < Real.sqrt (mu * p) := Real.sqrt_pos.2 (by positivity)
  have hρ : 0 < p / (1 + e * Real.cos f) := by positivity
  have hnode : node_vec (Real.sqrt (mu * p) • poleDir i Ω) = (Real.sqrt (mu * p) * Real.sin i) • inPlane i Ω 0 := by
    ext <;> simp [node_vec, cross, poleDir, inPlane, nodeDir, aheadDir] <;> ring
  have hdotc : ∀ (a b : ℝ) (x y : V3 ℝ), dot (a • x) (b • y) = a * b * dot x y := by
    intro a b x y; simp only [dot, smul_x, smul_y, smul_z]; ring
  have hcrossc : ∀ (a b : ℝ) (x y : V3 ℝ), cross (a • x) (b • y) = (a * b) • cross x y := by
    intro a b x y; ext <;> simp only [cross, smul_x, smul_y, smul_z] <;> ring
  have hang : ∀ (a b x y : ℝ), 0 < a → 0 < b →
      wrapNeg (Complex.arg ⟨dot (a • inPlane i Ω x) (b • inPlane i Ω y),
        V3.norm (cross (a • inPlane i Ω x) (b • inPlane i Ω y))⟩) = Real.arccos (Real.cos (y - x)) := by
    intro a b x y ha hb
    have hab : 0 < a * b := mul_pos ha hb
    rw [hdotc, hcrossc, dot_inPlane, cross_inPlane, norm_smul, norm_smul, norm_pole, mul_one, abs_of_pos hab,
      arg_fold hab, wrapNeg_of_nonneg (Real.arccos_nonneg _)]
  ext
  · exact m2
  · exact m3
  · simp only [rv2coe, inclination, h2, norm_smul, norm_pole, abs_of_pos hw, arccos_real]
    rw [show (Real.sqrt (mu * p) • poleDir i Ω).z / (Real.sqrt (mu * p) * 1) = Real.cos i by
      simp only [smul_z, poleDir]; field_simp]
    exact Real.arccos_cos hi0.le hi1.le
  · simp only [rv2coe, h2, hnode, right_ascension, arctan2_real]
    have hk : 0 < Real.sqrt (mu * p) * Real.sin i := mul_pos hw hsi
    rw [show ((Real.sqrt (mu * p) * Real.sin i) • inPlane i Ω 0).x
        = (Real.sqrt (mu * p) * Real.sin i) * Real.cos Ω by simp [inPlane, nodeDir],
      show ((Real.sqrt (mu * p) * Real.sin i) • inPlane i Ω 0).y
        = (Real.sqrt (mu * p) * Real.sin i) * Real.sin Ω by simp [inPlane, nodeDir]]
    rcases le_or_gt Ω Real.pi with h | h
    · rw [arctan2_eq hk (by linarith [Real.pi_pos]) h, wrapNeg_of_nonneg hΩ0]
    · rw [← Real.cos_sub_two_pi Ω, ← Real.sin_sub_two_pi Ω,
        arctan2_eq hk (by linarith) (by linarith [Real.pi_pos]), wrapNeg_of_neg (by linarith)]
      ring
  · simp only [rv2coe, h2, h3, hnode, argument_of_periapsis, arctan2_real]
    rw [hang _ _ _ _ (mul_pos hw hsi) he, sub_zero]
  · simp only [rv2coe, h3, true_anomaly, arctan2_real]
    rw [h1]
    rw [hang _ _ _ _ he hρ, add_sub_cancel_left]

/-- C33: hence the round trip is exact precisely when both angles lie in `[0, π]`. -/
theorem C33_roundtrip_iff (he : 0 < e) (hi0 : 0 < i) (hi1 : i < Real.pi) (hΩ0 : 0 ≤ Ω)
    (hΩ1 : Ω < 2 * Real.pi) (hω0 : 0 ≤ ω) (hf0 : 0 ≤ f) :
    rv2coe (coe2rv p e i Ω ω f mu).1 (coe2rv p e i Ω ω f mu).2 mu = ⟨p, e, i, Ω, ω, f⟩
      ↔ ω ≤ Real.pi ∧ f ≤ Real.pi := by
  rw [C33_roundtrip_folded hp hmu hf i Ω ω he hi0 hi1 hΩ0 hΩ1]
  simp only [COE.mk.injEq, true_and]
  constructor
  · rintro ⟨a, b⟩
    exact ⟨a ▸ Real.arccos_le_pi _, b ▸ Real.arccos_le_pi _⟩
  · rintro ⟨a, b⟩
    exact ⟨Real.arccos_cos hω0 a, Real.arccos_cos hf0 b⟩

/-- C33, the part that is true. Full claim (refuted by `C33_refuted` below): the same for all
`ω, f ∈ [0, 2π)`. Missing: the half-planes `ω > π` and `f > π`, which the code loses. -/
theorem C33_roundtrip_partial (he : 0 < e) (hi0 : 0 < i) (hi1 : i < Real.pi) (hΩ0 : 0 ≤ Ω)
    (hΩ1 : Ω < 2 * Real.pi) (hω0 : 0 ≤ ω) (hω1 : ω ≤ Real.pi) (hf0 : 0 ≤ f) (hf1 : f ≤ Real.pi) :
    rv2coe (coe2rv p e i Ω ω f mu).1 (coe2rv p e i Ω ω f mu).2 mu = ⟨p, e, i, Ω, ω, f⟩ :=
  (C33_roundtrip_iff hp hmu hf i Ω ω he hi0 hi1 hΩ0 hΩ1 hω0 hf0).2 ⟨hω1, hf1⟩

/-- C33 for circular orbits: the two angles that are undefined come back as zero, so the position along the
orbit is lost. -/
theorem C33_circular (he : e = 0) :
    (rv2coe (coe2rv p e i Ω ω f mu).1 (coe2rv p e i Ω ω f mu).2 mu).argp = 0 ∧
    (rv2coe (coe2rv p e i Ω ω f mu).1 (coe2rv p e i Ω ω f mu).2 mu).true_anom = 0 := by
  obtain ⟨-, -, h3, -⟩ := C32_geometry hp hmu hf i Ω ω
  have hz : eccentricity_vector (coe2rv p e i Ω ω f mu).1 (coe2rv p e i Ω ω f mu).2 mu = ⟨0, 0, 0⟩ := by
    rw [h3, he]; ext <;> simp
  have h0 : Complex.arg ⟨0, 0⟩ = 0 := Complex.arg_zero
  constructor
  · simp only [rv2coe, hz, argument_of_periapsis, arctan2_real]
    simp [cross, dot, V3.norm, wrapNeg, h0]
  · simp only [rv2coe, hz, true_anomaly, arctan2_real]
    simp [cross, dot, V3.norm, wrapNeg, h0]

end

/-- C33: the full round-trip claim is false: an inclined ellipse with true anomaly `3π/2` comes back with
true anomaly `π/2`. -/
theorem C33_refuted :
    ¬ ∀ p e i Ω ω f mu : ℝ, 0 < p → 0 < e → 0 < i → i < Real.pi → 0 ≤ Ω → Ω < 2 * Real.pi → 0 ≤ ω →
      ω < 2 * Real.pi → 0 ≤ f → f < 2 * Real.pi → 0 < 1 + e * Real.cos f → 0 < mu →
      rv2coe (coe2rv p e i Ω ω f mu).1 (coe2rv p e i Ω ω f mu).2 mu = ⟨p, e, i, Ω, ω, f⟩ := by
  intro h
  have hpi := Real.pi_pos
  have hf : 0 < 1 + (1 / 2 : ℝ) * Real.cos (3 * Real.pi / 2) := by
    linarith [Real.neg_one_le_cos (3 * Real.pi / 2)]
  have := h 1 (1 / 2) 1 1 1 (3 * Real.pi / 2) 1 one_pos (by norm_num) one_pos (by linarith [Real.two_le_pi])
    zero_le_one (by linarith [Real.two_le_pi]) zero_le_one (by linarith [Real.two_le_pi]) (by positivity)
    (by linarith) hf one_pos
  rw [C33_roundtrip_iff one_pos one_pos hf 1 1 1 (by norm_num) one_pos (by linarith [Real.two_le_pi])
    zero_le_one (by linarith [Real.two_le_pi]) zero_le_one (by positivity)] at this
  linarith [this.2]

section
variable {r v : V3 ℝ} {mu : ℝ}

/-- Every state that is not rectilinear has classical elements: it is in the range of `coe2rv`. -/
theorem C34_coe2rv_surjective (hmu : 0 < mu) (hh : angular_momentum r v ≠ ⟨0, 0, 0⟩) :
    ∃ p e i Ω ω f, 0 < p ∧ 0 ≤ e ∧ (0 ≤ i ∧ i ≤ Real.pi) ∧ (0 ≤ Ω ∧ Ω < 2 * Real.pi) ∧
      (0 ≤ ω ∧ ω < 2 * Real.pi) ∧ (0 ≤ f ∧ f < 2 * Real.pi) ∧ 0 < 1 + e * Real.cos f ∧
      coe2rv p e i Ω ω f mu = (r, v) := by
  have hr : r ≠ ⟨0, 0, 0⟩ := by rintro rfl; apply hh; ext <;> simp [angular_momentum, cross]
  change cross r v ≠ _ at hh
  have hn := (norm_pos r).2 hr
  have hH := (norm_pos (cross r v)).2 hh
  set h := cross r v with hdef
  set H := V3.norm h with hHdef
  have hH2 : H ^ 2 = h.x * h.x + h.y * h.y + h.z * h.z := norm_sq h
  set ev := eccentricity_vector r v mu with hev
  -- inclination and node
  have hcz : -1 ≤ h.z / H ∧ h.z / H ≤ 1 := by
    have := abs_le_of_sq_le_sq' (a := h.z) (b := H) (by nlinarith [sq_nonneg h.x, sq_nonneg h.y]) hH.le
    rw [le_div_iff₀ hH, div_le_iff₀ hH]
    constructor <;> linarith [this.1, this.2]
  set i := Real.arccos (h.z / H) with hi
  have hci : H * Real.cos i = h.z := by rw [hi, Real.cos_arccos hcz.1 hcz.2]; field_simp
  obtain ⟨Ω, hΩ0, hΩ1, hx, hy⟩ := exists_angle (-h.y) h.x
  have hsi : Real.sqrt ((-h.y) ^ 2 + h.x ^ 2) = H * Real.sin i := by
    rw [hi, Real.sin_arccos, ← Real.sqrt_sq hH.le, ← Real.sqrt_mul (sq_nonneg H), Real.sqrt_sq hH.le]
    congr 1; field_simp; rw [hH2]; ring
  rw [hsi] at hx hy
  have hpole : h = H • poleDir i Ω := by
    ext <;> simp only [poleDir, smul_x, smul_y, smul_z]
    · linarith
    · linarith
    · linarith
  have perp : ∀ x : V3 ℝ, dot x h = 0 → dot x (poleDir i Ω) = 0 := by
    intro x hxh
    rw [hpole] at hxh
    have : dot x (H • poleDir i Ω) = H * dot x (poleDir i Ω) := by
      simp only [dot, smul_x, smul_y, smul_z]; ring
    rw [this] at hxh
    exact (mul_eq_zero.1 hxh).resolve_left hH.ne'
  -- periapsis and position angles
  obtain ⟨ω, hω0, hω1, hω⟩ := exists_inPlane i Ω (perp ev (ecc_dot_h r v mu))
  obtain ⟨u, hu0, hu1, hu⟩ := exists_inPlane i Ω (perp r (dot_cross_left r v))
  set e := V3.norm ev with he
  set p := H ^ 2 / mu with hp
  have hp0 : 0 < p := by positivity
  obtain ⟨f, hf0, hf1, hfu⟩ : ∃ f, 0 ≤ f ∧ f < 2 * Real.pi ∧ inPlane i Ω (ω + f) = inPlane i Ω u := by
    rcases le_or_gt ω u with hle | hlt
    · exact ⟨u - ω, by linarith, by linarith, by rw [add_sub_cancel]⟩
    · refine ⟨u - ω + 2 * Real.pi, by linarith, by linarith, ?_⟩
      rw [show ω + (u - ω + 2 * Real.pi) = u + 2 * Real.pi by ring]
      simp only [inPlane, Real.cos_add_two_pi, Real.sin_add_two_pi]
  have hrn : r = V3.norm r • inPlane i Ω (ω + f) := by rw [hfu]; exact hu
  have hdot : dot ev r = e * V3.norm r * Real.cos f := by
    conv_lhs => rw [hω, hrn]
    have hdotc : ∀ (a b : ℝ) (x y : V3 ℝ), dot (a • x) (b • y) = a * b * dot x y := by
      intro a b x y; simp only [dot, smul_x, smul_y, smul_z]; ring
    rw [hdotc, dot_inPlane, add_sub_cancel_left]
  have horb := ecc_dot_pos (v := v) hr hmu.ne'
  rw [← hev, ← hdef, hdot, ← norm_sq, ← hHdef, ← hp] at horb
  have hprod : (1 + e * Real.cos f) * V3.norm r = p := by rw [← horb]; ring
  have hpos : 0 < 1 + e * Real.cos f := by
    by_contra hneg
    have := mul_nonpos_of_nonpos_of_nonneg (not_lt.1 hneg) hn.le
    linarith
  have hrad : p / (1 + e * Real.cos f) = V3.norm r := by rw [div_eq_iff hpos.ne', ← hprod]; ring
  refine ⟨p, e, i, Ω, ω, f, hp0, norm_nonneg _, ⟨Real.arccos_nonneg _, Real.arccos_le_pi _⟩, ⟨hΩ0, hΩ1⟩,
    ⟨hω0, hω1⟩, ⟨hf0, hf1⟩, hpos, ?_⟩
  obtain ⟨g1, g2, g3, -⟩ := C32_geometry hp0 hmu hpos i Ω ω
  rw [hrad, ← hrn] at g1
  have hHs : Real.sqrt (mu * p) = H := by
    rw [hp, mul_div_cancel₀ _ hmu.ne', Real.sqrt_sq hH.le]
  rw [hHs, ← hpole] at g2
  rw [← hω] at g3
  have hv' := vel_from_h_ecc (r := (coe2rv p e i Ω ω f mu).1) (v := (coe2rv p e i Ω ω f mu).2) hmu.ne'
    (by change angular_momentum _ _ ≠ _; rw [g2]; exact hh)
  have g2' : cross (coe2rv p e i Ω ω f mu).1 (coe2rv p e i Ω ω f mu).2 = h := g2
  rw [g2', g3, g1] at hv'
  have hv := vel_from_h_ecc (r := r) (v := v) hmu.ne' hh
  rw [← hdef, ← hev] at hv
  exact Prod.ext g1 (hv'.trans hv.symm)

/-- C34: for a state that is neither rectilinear nor circular nor equatorial, converting to elements and back
gives the state exactly when it is not inbound and its periapsis is not on the southern side. -/
theorem C34_roundtrip_iff (hmu : 0 < mu) (hh : angular_momentum r v ≠ ⟨0, 0, 0⟩)
    (hcirc : eccentricity_vector r v mu ≠ ⟨0, 0, 0⟩) (hequ : node_vec (angular_momentum r v) ≠ ⟨0, 0, 0⟩) :
    (let c := rv2coe r v mu
     coe2rv c.p c.e c.incl c.raan c.argp c.true_anom mu = (r, v))
      ↔ 0 ≤ dot r v ∧ 0 ≤ (eccentricity_vector r v mu).z := by
  obtain ⟨p, e, i, Ω, ω, f, hp, he, ⟨hi0, hi1⟩, ⟨hΩ0, hΩ1⟩, ⟨hω0, hω1⟩, ⟨hf0, hf1⟩, hf, heq⟩ :=
    C34_coe2rv_surjective hmu hh
  obtain ⟨g1, g2, g3, g4⟩ := C32_geometry hp hmu hf i Ω ω
  simp only [heq] at g1 g2 g3 g4
  have he' : 0 < e := lt_of_le_of_ne he (by rintro rfl; exact hcirc (by rw [g3]; ext <;> simp))
  have hsi : Real.sin i ≠ 0 := by
    intro h0; apply hequ; rw [g2]; ext <;> simp [node_vec, cross, poleDir, h0]
  have hi0' : 0 < i := lt_of_le_of_ne hi0 (by rintro rfl; simp at hsi)
  have hi1' : i < Real.pi := lt_of_le_of_ne hi1 (by rintro rfl; simp at hsi)
  have hsi' : 0 < Real.sin i := Real.sin_pos_of_pos_of_lt_pi hi0' hi1'
  have hrt := C33_roundtrip_folded hp hmu hf i Ω ω he' hi0' hi1' hΩ0 hΩ1
  simp only [heq] at hrt
  simp only [hrt]
  have hfold : ∀ x, Real.cos (Real.arccos (Real.cos x)) = Real.cos x := fun x =>
    Real.cos_arccos (Real.neg_one_le_cos x) (Real.cos_le_one x)
  have hsinf : ∀ x, 0 ≤ Real.sin (Real.arccos (Real.cos x)) := fun x =>
    Real.sin_nonneg_of_nonneg_of_le_pi (Real.arccos_nonneg _) (Real.arccos_le_pi _)
  have hρ : 0 < p / (1 + e * Real.cos f) := by positivity
  have hw : 0 < Real.sqrt (mu / p) := Real.sqrt_pos.2 (by positivity)
  have hez : (eccentricity_vector r v mu).z = e * (Real.sin ω * Real.sin i) := by
    rw [g3]; simp [inPlane, nodeDir, aheadDir]
  constructor
  · intro h
    obtain ⟨-, -, k3, k4⟩ := C32_geometry (f := Real.arccos (Real.cos f)) hp hmu (by rw [hfold]; exact hf) i Ω
      (Real.arccos (Real.cos ω))
    simp only [h] at k3 k4
    constructor
    · rw [k4, hfold]
      have := hsinf f
      positivity
    · rw [k3]
      have := hsinf ω
      simp only [smul_z, inPlane, nodeDir, aheadDir, add_z, mul_zero, zero_add]
      positivity
  · rintro ⟨h1, h2⟩
    rw [g4] at h1
    rw [hez] at h2
    have fle : ∀ x, 0 ≤ x → x < 2 * Real.pi → 0 ≤ Real.sin x → x ≤ Real.pi ∨ False := by
      intro x hx0 hx1 hs
      by_contra hc
      push Not at hc
      have h3 : Real.sin (x - Real.pi) > 0 := Real.sin_pos_of_pos_of_lt_pi (by linarith [hc.1]) (by linarith)
      rw [Real.sin_sub_pi] at h3
      linarith
    have hsf : 0 ≤ Real.sin f := by
      by_contra hneg
      push Not at hneg
      have : p / (1 + e * Real.cos f) * (Real.sqrt (mu / p) * (e * Real.sin f)) < 0 :=
        mul_neg_of_pos_of_neg hρ (mul_neg_of_pos_of_neg hw (mul_neg_of_pos_of_neg he' hneg))
      linarith
    have hsω : 0 ≤ Real.sin ω := by
      by_contra hneg
      push Not at hneg
      have : e * (Real.sin ω * Real.sin i) < 0 :=
        mul_neg_of_pos_of_neg he' (mul_neg_of_neg_of_pos hneg hsi')
      linarith
    rw [Real.arccos_cos hω0 ((fle ω hω0 hω1 hsω).resolve_right id),
      Real.arccos_cos hf0 ((fle f hf0 hf1 hsf).resolve_right id)]
    exact heq

/-- C34, the part that is true. Full claim (refuted by `C34_refuted` below): the same without `hout` and
`hnorth`. -/
theorem C34_roundtrip_partial (hmu : 0 < mu) (hh : angular_momentum r v ≠ ⟨0, 0, 0⟩)
    (hcirc : eccentricity_vector r v mu ≠ ⟨0, 0, 0⟩) (hequ : node_vec (angular_momentum r v) ≠ ⟨0, 0, 0⟩)
    (hout : 0 ≤ dot r v) (hnorth : 0 ≤ (eccentricity_vector r v mu).z) :
    (let c := rv2coe r v mu
     coe2rv c.p c.e c.incl c.raan c.argp c.true_anom mu = (r, v)) :=
  (C34_roundtrip_iff hmu hh hcirc hequ).2 ⟨hout, hnorth⟩

end

/-- C34: the full claim is false: this inclined inbound elliptic state is not returned. -/
theorem C34_refuted :
    ¬ ∀ (r v : V3 ℝ) (mu : ℝ), 0 < mu → angular_momentum r v ≠ ⟨0, 0, 0⟩ →
      eccentricity_vector r v mu ≠ ⟨0, 0, 0⟩ → node_vec (angular_momentum r v) ≠ ⟨0, 0, 0⟩ →
      (let c := rv2coe r v mu
       coe2rv c.p c.e c.incl c.raan c.argp c.true_anom mu = (r, v)) := by
  intro h
  have hh : angular_momentum (⟨1, 0, 0⟩ : V3 ℝ) ⟨-1, 0, 1⟩ ≠ ⟨0, 0, 0⟩ := by
    simp [angular_momentum, cross]
  have hn : V3.norm (⟨1, 0, 0⟩ : V3 ℝ) = 1 := by simp [V3.norm, dot]
  have he : eccentricity_vector (⟨1, 0, 0⟩ : V3 ℝ) ⟨-1, 0, 1⟩ 1 ≠ ⟨0, 0, 0⟩ := by
    rw [ecc_eq, hn]; simp [dot, V3.ext_iff]
  have hno : node_vec (angular_momentum (⟨1, 0, 0⟩ : V3 ℝ) ⟨-1, 0, 1⟩) ≠ ⟨0, 0, 0⟩ := by
    simp [node_vec, angular_momentum, cross]
  have := (C34_roundtrip_iff one_pos hh he hno).1 (h _ _ _ one_pos hh he hno)
  have h1 := this.1
  simp [dot] at h1
  linarith

/-- The round trip holds for the outbound mirror image of that state. -/
example : (let c := rv2coe (⟨1, 0, 0⟩ : V3 ℝ) ⟨1, 0, -1⟩ 1
    coe2rv c.p c.e c.incl c.raan c.argp c.true_anom 1 = ((⟨1, 0, 0⟩ : V3 ℝ), (⟨1, 0, -1⟩ : V3 ℝ))) := by
  have hn : V3.norm (⟨1, 0, 0⟩ : V3 ℝ) = 1 := by simp [V3.norm, dot]
  refine (C34_roundtrip_iff one_pos (by simp [angular_momentum, cross]) (by rw [ecc_eq, hn]; simp [dot, V3.ext_iff])
    (by simp [node_vec, angular_momentum, cross])).2 ⟨by simp [dot], ?_⟩
  rw [ecc_eq, hn]; simp [dot]

end Adx
