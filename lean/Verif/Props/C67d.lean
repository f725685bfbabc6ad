import Verif.Props.C67b
import Verif.Props.C67c
import Verif.Lemmas.Formats

/-! # C67: two formulas that lose accuracy, and the bounds at binary64 -/

namespace Adx
open Spec

/-! ### `1 - e**2` cancels -/

/-- The eccentricity of the witness: `1 - 2896 · 2^-24`. -/
noncomputable def eW : Rnd F32 := ⟨1 - 2896 / 2 ^ 24⟩

theorem rd32_one_w : rd32 1 = 1 := Rep32.rd ⟨1, 0, by norm_num, by norm_num⟩

theorem eW_rep : rd32 eW.val = eW.val := Rep32.rd ⟨2 ^ 24 - 2896, -24, by norm_num, by norm_num [eW]⟩

theorem eW_sq : rd32 (eW.val * eW.val) = 1 - 5792 / 2 ^ 24 := by
  have hu : ulp32 (eW.val * eW.val) = (2 : ℝ) ^ (-24 : ℤ) := by
    have := ulp32_eq (x := eW.val * eW.val) (n := -1) (by norm_num [eW]) (by norm_num [eW])
    rw [this]; norm_num
  have : rne (eW.val * eW.val / ulp32 (eW.val * eW.val)) = 2 ^ 24 - 5792 := by
    apply rne_eq_of_near
    rw [hu]
    norm_num [eW, abs_lt]
  rw [rd32, this, hu]
  norm_num

theorem eW_one_sub : (((1 : ℕ) : Rnd F32) - eW ^ 2).val = 5792 / 2 ^ 24 := by
  change rd32 (rd32 ((1 : ℕ) : ℝ) - rd32 (eW.val * eW.val)) = _
  rw [eW_sq, Nat.cast_one, rd32_one_w]
  rw [show (1 : ℝ) - (1 - 5792 / 2 ^ 24) = 5792 / 2 ^ 24 by ring]
  exact Rep32.rd ⟨5792, -24, by norm_num, by norm_num⟩

/-- In binary32 the semiparameter of the orbit `a = 1`, `e = 1 - 2896 · 2^-24` is off by more than 1400 roundings, so no
bound of the form `γ_k |p|` with a small `k` holds for every orbit: the condition number of `C67_ae_pe` is needed. -/
theorem C67_one_sub_sq_loses :
    1400 * 2 ^ (-24 : ℤ) * |semipara_from_ae 1 eW.val| <
      |(semipara_from_ae ⟨1⟩ eW).val - semipara_from_ae 1 eW.val| := by
  have h1 : (semipara_from_ae (⟨1⟩ : Rnd F32) eW).val = 5792 / 2 ^ 24 := by
    change rd32 (1 * (((1 : ℕ) : Rnd F32) - eW ^ 2).val) = _
    rw [eW_one_sub, one_mul]
    exact Rep32.rd ⟨5792, -24, by norm_num, by norm_num⟩
  have h2 : semipara_from_ae 1 eW.val = 1 - (1 - 2896 / 2 ^ 24) ^ 2 := by
    simp [semipara_from_ae, eW]
  rw [h1, h2]
  norm_num

/-! ### Inclination near the equator -/

theorem ulp32_one_w : ulp32 1 = (2 : ℝ) ^ (-23 : ℤ) := by
  have := ulp32_eq (x := 1) (n := 0) (by norm_num) (by norm_num)
  simpa using this

/-- In binary32 every angular momentum `(0, s, 1)` with `0 < s ≤ 2^-13` gets the inclination 0: the tilt of up to 25
arc seconds is lost, because `arccos` is evaluated next to 1. -/
theorem C67_inclination_lost (s : ℝ) (h0 : 0 < s) (h1 : s ≤ 1 / 2 ^ 13) :
    (inclination (⟨⟨0⟩, ⟨s⟩, ⟨1⟩⟩ : V3 (Rnd F32))).val = 0 ∧ s / 2 < inclination (⟨0, s, 1⟩ : V3 ℝ) := by
  constructor
  · set t := rd32 (s * s) with ht
    have hs2 : s * s ≤ 1 / 2 ^ 26 := by nlinarith
    have hs0 : 0 < s * s := by positivity
    have hr := rd32_rel (s * s)
    rw [abs_of_pos hs0] at hr
    have ht0 := abs_le.1 hr
    have t0 : 0 ≤ t := by rw [ht]; linarith [ht0.1, div_le_self hs0.le (by norm_num : (1 : ℝ) ≤ 2 ^ 24)]
    have t1 : t < 1 / 2 ^ 24 := by
      rw [ht]
      have : s * s / 2 ^ 24 ≤ s * s := div_le_self hs0.le (by norm_num)
      linarith [ht0.2]
    have e1 : rd32 (0 * 0 : ℝ) = 0 := by rw [zero_mul, rd32_zero]
    have e2 : rd32 (0 + t) = t := by rw [zero_add, ht, rd32_idem]
    have e3 : rd32 (t + 1) = 1 := by
      rw [add_comm]
      refine rd32_absorb ⟨1, 0, by norm_num, by norm_num⟩ one_pos t0 ?_
      rw [ulp32_one_w]; norm_num at t1 ⊢; linarith
    change rd32 (Real.arccos (rd32 (1 / rd32 (Real.sqrt (rd32 (rd32 (rd32 (0 * 0) + rd32 (s * s)) + rd32 (1 * 1))))))) = 0
    rw [e1, ← ht, e2, mul_one, rd32_one_w, e3, Real.sqrt_one, rd32_one_w, div_one, rd32_one_w, Real.arccos_one, rd32_zero]
  · have hs1 : s ≤ 1 := h1.trans (by norm_num)
    set i := inclination (⟨0, s, 1⟩ : V3 ℝ) with hi
    have hi' : i = Real.arccos (1 / Real.sqrt (s * s + 1)) := by
      rw [hi]; simp [inclination, V3.norm, V3.dot]
    have hq : 0 < Real.sqrt (s * s + 1) := Real.sqrt_pos.2 (by positivity)
    have hq1 : 1 ≤ Real.sqrt (s * s + 1) := Real.one_le_sqrt.2 (by nlinarith)
    rw [hi']
    rw [← Real.arccos_cos (x := s / 2) (by linarith) (by linarith [Real.two_le_pi])]
    refine Real.arccos_lt_arccos ?_ ?_ (Real.cos_le_one _)
    · have : 0 < 1 / Real.sqrt (s * s + 1) := by positivity
      linarith
    · have h3 := Real.one_sub_sq_div_two_le_cos (x := s / 2)
      have h4 : 1 / Real.sqrt (s * s + 1) < 1 - (s / 2) ^ 2 / 2 := by
        rw [div_lt_iff₀ hq]
        have h5 := Real.sq_sqrt (show 0 ≤ s * s + 1 by positivity)
        have hb : 0 < 1 - (s / 2) ^ 2 / 2 := by nlinarith
        have h6 : 1 < ((1 - (s / 2) ^ 2 / 2) * Real.sqrt (s * s + 1)) ^ 2 := by
          rw [mul_pow, h5]
          obtain ⟨q, hq⟩ : ∃ q, q = s * s := ⟨_, rfl⟩
          have q0 : 0 < q := hq ▸ mul_pos h0 h0
          have q1 : q ≤ 1 := by rw [hq]; nlinarith
          rw [show (s / 2) ^ 2 / 2 = q / 8 by rw [hq]; ring, ← hq]
          nlinarith [mul_pos q0 q0, mul_pos q0 (mul_pos q0 q0)]
        exact (one_lt_sq_iff₀ (by positivity)).1 h6
      linarith

/-! ### Concrete cases -/

/-- Binary64: the period of the geostationary orbit. -/
example : |(orb_period (⟨42164⟩ : Rnd F64) ⟨398600⟩).val - orb_period 42164 398600| ≤
    gam (2 ^ (-53 : ℤ)) (11 / 2) * |orb_period 42164 398600| := C67_orb_period stdModel_F64 _ _

/-- `γ_11/2` is below `10^-15` in binary64. -/
example : gam (2 ^ (-53 : ℤ)) (11 / 2) < 1 / 10 ^ 15 := by norm_num [gam]

/-- The condition number of `a (1 - e²)` at `e = 1/2` is 5/3. -/
example : |(semipara_from_ae (⟨7000⟩ : Rnd F64) ⟨1 / 2⟩).val - semipara_from_ae 7000 (1 / 2)| ≤
    gam (2 ^ (-53 : ℤ)) (4 * (5 / 3) + 1) * |semipara_from_ae 7000 (1 / 2)| :=
  (C67_ae_pe stdModel_F64 (⟨7000⟩ : Rnd F64) ⟨1 / 2⟩ (c := 5 / 3) (by norm_num) (by norm_num [abs_of_pos]) (by norm_num)).1

/-- A transfer angle of 90° is far outside the rounding band of `is_short_way`. -/
example : is_short_way (⟨⟨1⟩, ⟨0⟩, ⟨0⟩⟩ : V3 (Rnd F64)) ⟨⟨0⟩, ⟨1⟩, ⟨0⟩⟩ ⟨⟨0⟩, ⟨1⟩, ⟨0⟩⟩ = true := by
  rw [C67_is_short_way stdModel_F64]
  · simp [is_short_way, V3.re, V3.dot, V3.cross]
  · norm_num [V3.re, V3.norm, V3.dot, V3.cross, gam]

/-- A circular orbit of radius 1 is not below 1/2. -/
example : rp_islower_rmin (⟨1 / 2⟩ : Rnd F64) ⟨⟨1⟩, ⟨0⟩, ⟨0⟩⟩ ⟨⟨0⟩, ⟨1⟩, ⟨0⟩⟩ ⟨1⟩ = false := by
  rw [C67_rp_islower_rmin stdModel_F64 _ _ _ _ (c := 7) (by norm_num [V3.re, V3.norm, V3.dot]) (by norm_num)]
  · norm_num [rp_islower_rmin, V3.re, V3.norm, V3.dot, V3.cross, angular_momentum, eccentricity_vector, semiparameter,
      radius_periapsis]
  · norm_num [V3.re, V3.norm, V3.dot, V3.cross, gam, angular_momentum, eccentricity_vector, semiparameter,
      radius_periapsis, abs_of_pos]

end Adx
