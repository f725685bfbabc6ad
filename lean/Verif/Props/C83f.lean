import Verif.Props.C83e

/-! # C83: concrete cases in binary32 and binary64 -/

namespace Adx
open Spec Fl

theorem inRange_zero {p : ℕ} {q : ℤ} {B : ℝ} (hB : 0 ≤ B) : InRange (FU p q) B 0 :=
  ⟨rdU_zero p q, by rw [abs_zero]; exact hB, Or.inl rfl⟩

theorem inRange_nat {p : ℕ} {q : ℤ} {B : ℝ} (hq : q + p ≤ 1) (n : ℕ) (h1 : 1 ≤ n) (hn : n < 2 ^ p) (hB : (n : ℝ) ≤ B) :
    InRange (FU p q) B n := by
  have h1' : (1 : ℝ) ≤ n := by exact_mod_cast h1
  have hν : nuB p q ≤ 1 := by
    unfold nuB
    exact zpow_le_one_of_nonpos₀ (by norm_num) (by linarith)
  refine ⟨(rdU_normal (by rw [Nat.abs_cast]; linarith)).trans (rdB_nat p n hn), by rw [Nat.abs_cast]; exact hB, Or.inr ?_⟩
  rw [Nat.abs_cast, div_le_iff₀ (by linarith)]
  nlinarith

theorem inRange_zpow {p : ℕ} (hp : 1 ≤ p) {q : ℤ} {K : ℕ} (k : ℤ) (hk : q + p - 1 ≤ k) (h1 : -(K : ℤ) ≤ k) (h2 : k ≤ K) :
    InRange (FU p q) ((2 : ℝ) ^ K) ((2 : ℝ) ^ k) := by
  have h0 : (0 : ℝ) < (2 : ℝ) ^ k := by positivity
  have ha : |(2 : ℝ) ^ k| = (2 : ℝ) ^ k := abs_of_pos h0
  refine ⟨(rdU_normal ?_).trans (rdB_zpow hp k), ?_, Or.inr ?_⟩
  · rw [ha]; exact zpow_le_zpow_right₀ (by norm_num) hk
  · rw [ha, ← zpow_natCast]; exact zpow_le_zpow_right₀ (by norm_num) h2
  · rw [ha, one_div, ← zpow_natCast, ← zpow_neg]; exact zpow_le_zpow_right₀ (by norm_num) h1

/-- The bases for binary32 and binary64. -/
theorem bases32 (K : ℕ) : Bases ((2 : ℝ) ^ (-24 : ℤ)) (2 ^ K) (2 ^ 24) := ⟨one_le_pow₀ (by norm_num), by norm_num⟩
theorem bases64 (K : ℕ) : Bases ((2 : ℝ) ^ (-53 : ℤ)) (2 ^ K) (2 ^ 53) := ⟨one_le_pow₀ (by norm_num), by norm_num⟩

/-- Ranges for binary64. -/
theorem pow_le_1021 {C : ℝ} {c K n m : ℕ} (hC : C ≤ 2 ^ c) (h : c + (K * n + 53 * m) ≤ 1021) :
    C * (((2 : ℝ) ^ K) ^ n * ((2 : ℝ) ^ 53) ^ m) ≤ 2 ^ 1021 := by
  rw [← pow_mul, ← pow_mul, ← _root_.pow_add]
  calc C * (2 : ℝ) ^ (K * n + 53 * m) ≤ 2 ^ c * 2 ^ (K * n + 53 * m) := mul_le_mul_of_nonneg_right hC (by positivity)
    _ = 2 ^ (c + (K * n + 53 * m)) := (_root_.pow_add _ _ _).symm
    _ ≤ 2 ^ 1021 := pow_le_pow_right₀ (by norm_num) h

/-- A period in binary32: `a = 7000`, `μ = 398600`. -/
example : ∃ P, orb_period (fin (7000 : ℕ) : U32) (fin (398600 : ℕ)) = fin P ∧
    |P - orb_period ((7000 : ℕ) : ℝ) (398600 : ℕ)| ≤ gam (2 ^ (-24 : ℤ)) (11 / 2) * |orb_period ((7000 : ℕ) : ℝ) (398600 : ℕ)| :=
  C83_orb_period uU32 rg32 (bases32 28) (inRange_nat (by norm_num) 7000 (by norm_num) (by norm_num) (by norm_num))
    (inRange_nat (by norm_num) 398600 (by norm_num) (by norm_num) (by norm_num)) (by norm_num) (by norm_num) (by norm_num)

/-- Semimajor axis from a period of 5829 s. -/
example : ∃ a, a_from_period (fin (5829 : ℕ) : U32) (fin (398600 : ℕ)) = fin a ∧
    |a - a_from_period ((5829 : ℕ) : ℝ) (398600 : ℕ)| ≤ gam (2 ^ (-24 : ℤ)) (1 + 7 / 3) * |a_from_period ((5829 : ℕ) : ℝ) (398600 : ℕ)| :=
  C83_a_from_period uU32 rg32 (bases32 28) (inRange_nat (by norm_num) 5829 (by norm_num) (by norm_num) (by norm_num))
    (inRange_nat (by norm_num) 398600 (by norm_num) (by norm_num) (by norm_num)) (by norm_num) (by norm_num) (by norm_num)

/-- Semiparameter, mean motion, radii, `a (1 - e²)`, semimajor axis and mean anomalies have cases too. -/
example : ∃ p, semiparameter (fin (52822 : ℕ) : U32) (fin (398600 : ℕ)) = fin p ∧
    |p - semiparameter ((52822 : ℕ) : ℝ) (398600 : ℕ)| ≤ gam (2 ^ (-24 : ℤ)) 2 * |semiparameter ((52822 : ℕ) : ℝ) (398600 : ℕ)| :=
  C83_semiparameter uU32 rg32 (bases32 28) (inRange_nat (by norm_num) 52822 (by norm_num) (by norm_num) (by norm_num))
    (inRange_nat (by norm_num) 398600 (by norm_num) (by norm_num) (by norm_num)) (by norm_num) (by norm_num)

example : ∃ n, mean_motion (fin (5829 : ℕ) : U32) = fin n ∧
    |n - mean_motion ((5829 : ℕ) : ℝ)| ≤ gam (2 ^ (-24 : ℤ)) 3 * |mean_motion ((5829 : ℕ) : ℝ)| :=
  C83_mean_motion uU32 rg32 (bases32 28) (inRange_nat (by norm_num) 5829 (by norm_num) (by norm_num) (by norm_num)) (by norm_num)
    (by norm_num)

example : ∃ r, radius_apoapsis (fin (7000 : ℕ) : U32) (fin ((2 : ℝ) ^ (-3 : ℤ))) = fin r ∧
    |r - radius_apoapsis ((7000 : ℕ) : ℝ) ((2 : ℝ) ^ (-3 : ℤ))| ≤
      gam (2 ^ (-24 : ℤ)) 2 * |radius_apoapsis ((7000 : ℕ) : ℝ) ((2 : ℝ) ^ (-3 : ℤ))| :=
  (C83_radii uU32 rg32 (bases32 28) (inRange_nat (by norm_num) 7000 (by norm_num) (by norm_num) (by norm_num))
    (inRange_zpow (by norm_num) _ (by norm_num) (by norm_num) (by norm_num)) (by norm_num) (by norm_num)).2 (by norm_num)

example : ∃ p, semipara_from_ae (fin (7000 : ℕ) : U32) (fin ((2 : ℝ) ^ (-3 : ℤ))) = fin p ∧
    |p - semipara_from_ae ((7000 : ℕ) : ℝ) ((2 : ℝ) ^ (-3 : ℤ))| ≤
      gam (2 ^ (-24 : ℤ)) (4 * 2 + 1) * |semipara_from_ae ((7000 : ℕ) : ℝ) ((2 : ℝ) ^ (-3 : ℤ))| :=
  (C83_ae_pe uU32 rg32 (bases32 28) (inRange_nat (by norm_num) 7000 (by norm_num) (by norm_num) (by norm_num))
    (inRange_zpow (by norm_num) _ (by norm_num) (by norm_num) (by norm_num)) (by norm_num) (c := 2) (by norm_num) (by norm_num)
    (by norm_num)).1

example : ∃ a, semimajor_axis (fin (7000 : ℕ) : U32) (fin (8 : ℕ)) (fin (398600 : ℕ)) = fin a ∧
    |a - semimajor_axis ((7000 : ℕ) : ℝ) (8 : ℕ) (398600 : ℕ)| ≤
      gam (2 ^ (-24 : ℤ)) (6 * 4 + 1) * |semimajor_axis ((7000 : ℕ) : ℝ) (8 : ℕ) (398600 : ℕ)| :=
  C83_semimajor_axis uU32 rg32 (bases32 28) (inRange_nat (by norm_num) 7000 (by norm_num) (by norm_num) (by norm_num))
    (inRange_nat (by norm_num) 8 (by norm_num) (by norm_num) (by norm_num))
    (inRange_nat (by norm_num) 398600 (by norm_num) (by norm_num) (by norm_num)) (by norm_num) (by norm_num) (by norm_num)
    (c := 4) (by norm_num [abs_of_pos]) (by norm_num) (by norm_num)

example : ∃ m, mean_anomaly_elps (fin (7000 : ℕ) : U32) (fin (100 : ℕ)) (fin (398600 : ℕ)) = fin m ∧
    |m - mean_anomaly_elps ((7000 : ℕ) : ℝ) (100 : ℕ) (398600 : ℕ)| ≤
      gam (2 ^ (-24 : ℤ)) (7 / 2) * |mean_anomaly_elps ((7000 : ℕ) : ℝ) (100 : ℕ) (398600 : ℕ)| :=
  (C83_mean_anomaly uU32 rg32 (bases32 24) (inRange_nat (by norm_num) 7000 (by norm_num) (by norm_num) (by norm_num))
    (inRange_nat (by norm_num) 100 (by norm_num) (by norm_num) (by norm_num))
    (inRange_nat (by norm_num) 398600 (by norm_num) (by norm_num) (by norm_num)) (by norm_num) (by norm_num)).1 (by norm_num)

/-- Lagrange coefficients, generalized anomaly. -/
example : ∃ f, lagrange_Ft (fin (3 : ℕ) : U32) (fin (7000 : ℕ)) (fin (6800 : ℕ)) (fin (398600 : ℕ)) = fin f ∧
    |f - lagrange_Ft ((3 : ℕ) : ℝ) (7000 : ℕ) (6800 : ℕ) (398600 : ℕ)| ≤
      gam (2 ^ (-24 : ℤ)) 4 * |lagrange_Ft ((3 : ℕ) : ℝ) (7000 : ℕ) (6800 : ℕ) (398600 : ℕ)| :=
  (C83_lagrange uU32 rg32 (bases32 24) (U2 := (5 : ℕ)) (s0 := (2 : ℕ))
    (inRange_nat (by norm_num) 3 (by norm_num) (by norm_num) (by norm_num))
    (inRange_nat (by norm_num) 5 (by norm_num) (by norm_num) (by norm_num))
    (inRange_nat (by norm_num) 7000 (by norm_num) (by norm_num) (by norm_num))
    (inRange_nat (by norm_num) 6800 (by norm_num) (by norm_num) (by norm_num))
    (inRange_nat (by norm_num) 2 (by norm_num) (by norm_num) (by norm_num))
    (inRange_nat (by norm_num) 398600 (by norm_num) (by norm_num) (by norm_num)) (by norm_num) (by norm_num) (by norm_num)
    (by norm_num)).2.2.1

example : ∃ x, generalized_anomaly (fin (3 : ℕ) : U32) (fin (5 : ℕ)) (fin (2 : ℕ)) (fin (100 : ℕ)) (fin (7 : ℕ)) = fin x ∧
    |x - generalized_anomaly ((3 : ℕ) : ℝ) (5 : ℕ) (2 : ℕ) (100 : ℕ) (7 : ℕ)| ≤
      gam (2 ^ (-24 : ℤ)) 5 * (|((3 : ℕ) : ℝ) * Real.sqrt (7 : ℕ) * (100 : ℕ)| + |((5 : ℕ) : ℝ)| + |((2 : ℕ) : ℝ)|) :=
  C83_generalized_anomaly uU32 rg32 (bases32 20)
    (inRange_nat (by norm_num) 3 (by norm_num) (by norm_num) (by norm_num))
    (inRange_nat (by norm_num) 5 (by norm_num) (by norm_num) (by norm_num))
    (inRange_nat (by norm_num) 2 (by norm_num) (by norm_num) (by norm_num))
    (inRange_nat (by norm_num) 100 (by norm_num) (by norm_num) (by norm_num))
    (inRange_nat (by norm_num) 7 (by norm_num) (by norm_num) (by norm_num)) (by norm_num) (by norm_num)

/-- A position and a velocity. -/
theorem inRangeV_pos {p : ℕ} {q : ℤ} (hp : 10 ≤ p) (hq : q + p ≤ 1) : InRangeV (FU p q) ((2 : ℝ) ^ 10) ⟨(3 : ℕ), (4 : ℕ), (12 : ℕ)⟩ := by
  have h : (2 : ℕ) ^ 10 ≤ 2 ^ p := Nat.pow_le_pow_right (by norm_num) hp
  norm_num at h
  exact ⟨inRange_nat hq 3 (by norm_num) (by omega) (by norm_num), inRange_nat hq 4 (by norm_num) (by omega) (by norm_num),
    inRange_nat hq 12 (by norm_num) (by omega) (by norm_num)⟩

theorem inRangeV_vel {p : ℕ} {q : ℤ} (hp : 10 ≤ p) (hq : q + p ≤ 1) : InRangeV (FU p q) ((2 : ℝ) ^ 10) ⟨(0 : ℝ), (1 : ℕ), (2 : ℕ)⟩ := by
  have h : (2 : ℕ) ^ 10 ≤ 2 ^ p := Nat.pow_le_pow_right (by norm_num) hp
  norm_num at h
  exact ⟨inRange_zero (by norm_num), inRange_nat hq 1 (by norm_num) (by omega) (by norm_num),
    inRange_nat hq 2 (by norm_num) (by omega) (by norm_num)⟩

theorem norm_pos_ex : 0 < V3.norm (⟨(3 : ℕ), (4 : ℕ), (12 : ℕ)⟩ : V3 ℝ) := Real.sqrt_pos.2 (by simp only [V3.dot]; norm_num)

example : ∃ s, sigma_fn (finV ⟨(3 : ℕ), (4 : ℕ), (12 : ℕ)⟩ : V3 U32) (finV ⟨(0 : ℝ), (1 : ℕ), (2 : ℕ)⟩) (fin (7 : ℕ)) = fin s ∧
    |s - sigma_fn (⟨(3 : ℕ), (4 : ℕ), (12 : ℕ)⟩ : V3 ℝ) ⟨(0 : ℝ), (1 : ℕ), (2 : ℕ)⟩ (7 : ℕ)| ≤ gam (2 ^ (-24 : ℤ)) 5 *
      (V3.norm (⟨(3 : ℕ), (4 : ℕ), (12 : ℕ)⟩ : V3 ℝ) * V3.norm (⟨(0 : ℝ), (1 : ℕ), (2 : ℕ)⟩ : V3 ℝ) / Real.sqrt (7 : ℕ)) :=
  C83_sigma_fn uU32 rg32 (bases32 10) (inRangeV_pos (by norm_num) (by norm_num)) (inRangeV_vel (by norm_num) (by norm_num))
    (inRange_nat (by norm_num) 7 (by norm_num) (by norm_num) (by norm_num)) (by norm_num) (by norm_num)

example : ∃ E, eccentricity_vector (finV ⟨(3 : ℕ), (4 : ℕ), (12 : ℕ)⟩ : V3 U64) (finV ⟨(0 : ℝ), (1 : ℕ), (2 : ℕ)⟩)
    (fin (7 : ℕ)) = finV E := by
  obtain ⟨-, E, h, -⟩ := C83_vectors uU64 rg64 (bases64 10) (inRangeV_pos (by norm_num) (by norm_num))
    (inRangeV_vel (by norm_num) (by norm_num)) (inRange_nat (by norm_num) 7 (by norm_num) (by norm_num) (by norm_num))
    (by norm_num) norm_pos_ex (pow_le_1021 (c := 6) (by norm_num) (by norm_num))
  exact ⟨E, h⟩

example : ∃ e, (rv2coe (finV ⟨(3 : ℕ), (4 : ℕ), (12 : ℕ)⟩ : V3 U64) (finV ⟨(0 : ℝ), (1 : ℕ), (2 : ℕ)⟩) (fin (7 : ℕ))).e = fin e := by
  obtain ⟨-, e, h, -⟩ := C83_rv2coe_pe uU64 rg64 (bases64 10) (inRangeV_pos (by norm_num) (by norm_num))
    (inRangeV_vel (by norm_num) (by norm_num)) (inRange_nat (by norm_num) 7 (by norm_num) (by norm_num) (by norm_num))
    (by norm_num) norm_pos_ex (pow_le_1021 (c := 18) (by norm_num) (by norm_num))
  exact ⟨e, h⟩

/-- A norm with components `1`, `2⁻⁷⁰` and `2⁻¹⁴⁰` in binary32: both squares of the small components underflow. -/
example : ∃ n, V3.norm (finV ⟨1, (2 : ℝ) ^ (-70 : ℤ), (2 : ℝ) ^ (-140 : ℤ)⟩ : V3 U32) = fin n ∧
    |n - V3.norm (⟨1, (2 : ℝ) ^ (-70 : ℤ), (2 : ℝ) ^ (-140 : ℤ)⟩ : V3 ℝ)| ≤
      4 * 2 ^ (-24 : ℤ) * V3.norm (⟨1, (2 : ℝ) ^ (-70 : ℤ), (2 : ℝ) ^ (-140 : ℤ)⟩ : V3 ℝ) := by
  obtain ⟨n, h1, -, h2⟩ := C83_norm uU32 ⟨1, (2 : ℝ) ^ (-70 : ℤ), (2 : ℝ) ^ (-140 : ℤ)⟩ omega32_four
    (by unfold omega32; simp only [V3.dot]; norm_num) (by simp only [V3.dot]; norm_num) (by simp only [V3.dot]; norm_num)
  exact ⟨n, h1, h2⟩

/-- The point mass in km and s in binary32, the second component a subnormal number. -/
example : ∃ A, point_mass_grav (fin 0 : U32) (finS ⟨⟨7000, (2 : ℝ) ^ (-140 : ℤ), 0⟩, []⟩)
    (finA fun k => if k = "mu" then some ((398600 : ℕ) : ℝ) else none) = .ok (finV A) := by
  have hn : V3.norm (⟨7000, (2 : ℝ) ^ (-140 : ℤ), 0⟩ : V3 ℝ) = Real.sqrt (7000 ^ 2 + ((2 : ℝ) ^ (-140 : ℤ)) ^ 2) := by
    simp only [V3.norm, V3.dot]; congr 1; ring
  obtain ⟨A, h, -⟩ := C83_point_mass uU32 rg32 (B := 2 ^ 23) (by norm_num) (t := fin 0)
    (x := ⟨⟨7000, (2 : ℝ) ^ (-140 : ℤ), 0⟩, []⟩) (a := finA fun k => if k = "mu" then some ((398600 : ℕ) : ℝ) else none)
    (mu := (398600 : ℕ)) (by simp [finA]) (inRange_nat (by norm_num) 398600 (by norm_num) (by norm_num) (by norm_num))
    (by rw [hn]; exact Real.le_sqrt_of_sq_le (by norm_num)) (by rw [hn]; exact Real.sqrt_le_iff.2 ⟨by norm_num, by norm_num⟩)
    (by norm_num) (by norm_num)
  exact ⟨A, h⟩

/-! ### An orbit of an asteroid in astronomical units -/

/-- Parameters: `μ = 2⁻⁴²`, `J3 = J4 = J2 = 2⁻¹⁰`, `R = 2⁻²⁴` (9 km). -/
noncomputable def astA : Args ℝ := fun k =>
  if k = "mu" then some ((2 : ℝ) ^ (-42 : ℤ)) else if k = "R_eq" then some ((2 : ℝ) ^ (-24 : ℤ))
  else if k = "J2" ∨ k = "J3" ∨ k = "J4" then some ((2 : ℝ) ^ (-10 : ℤ)) else none
/-- Position `(2⁻²³, 0, 2⁻²⁴)`: 20 km from the centre. -/
noncomputable def astX : State ℝ := ⟨⟨(2 : ℝ) ^ (-23 : ℤ), 0, (2 : ℝ) ^ (-24 : ℤ)⟩, []⟩

theorem astX_norm : V3.norm astX.pos = Real.sqrt (((2 : ℝ) ^ (-23 : ℤ)) ^ 2 + ((2 : ℝ) ^ (-24 : ℤ)) ^ 2) := by
  simp only [V3.norm, V3.dot, astX]; congr 1; ring
theorem astX_pos : 0 < V3.norm astX.pos := by rw [astX_norm]; positivity
theorem astX_le : V3.norm astX.pos ≤ (2 : ℝ) ^ (-22 : ℤ) := by
  rw [astX_norm]; exact Real.sqrt_le_iff.2 ⟨by norm_num, by norm_num⟩

theorem astX_range : InRangeV (FU 53 (-1074)) ((2 : ℝ) ^ 42) astX.pos :=
  ⟨inRange_zpow (by norm_num) _ (by norm_num) (by norm_num) (by norm_num), inRange_zero (by norm_num),
    inRange_zpow (by norm_num) _ (by norm_num) (by norm_num) (by norm_num)⟩

/-- C83, the asteroid: the J3 acceleration is finite and accurate in binary64, an infinity or `nan` in every component in
binary32. -/
theorem C83_asteroid :
    (∃ A A', j3_acc (fin 0 : U64) (finS astX) (finA astA) = .ok (finV A) ∧ j3_acc 0 astX astA = .ok A' ∧
      |A.x - A'.x| ≤ gam (2 ^ (-53 : ℤ)) 44 * (5 / 2 * |(2 : ℝ) ^ (-42 : ℤ)| * |(2 : ℝ) ^ (-10 : ℤ)| * |(2 : ℝ) ^ (-24 : ℤ)| ^ 3 /
        V3.norm astX.pos ^ 7 * |astX.pos.x| * (3 * |astX.pos.z| + 7 * (|astX.pos.z| ^ 3 / V3.norm astX.pos ^ 2)))) ∧
    (∃ A, j3_acc (fin 0 : U32) (finS astX) (finA astA) = .ok A ∧ AllNonFin A) ∧
    ∃ A, j4_acc (fin 0 : U32) (finS astX) (finA astA) = .ok A ∧ AllNonFin A := by
  have a1 : astA "mu" = some ((2 : ℝ) ^ (-42 : ℤ)) := by simp [astA]
  have a2 : astA "R_eq" = some ((2 : ℝ) ^ (-24 : ℤ)) := by simp [astA]
  have a3 : astA "J3" = some ((2 : ℝ) ^ (-10 : ℤ)) := by simp [astA]
  have a4 : astA "J4" = some ((2 : ℝ) ^ (-10 : ℤ)) := by simp [astA]
  obtain ⟨A, A', e1, e2, h⟩ := C83_j3 uU64 rg64 (bases64 42) (t := 0) (x := astX) a1 a3 a2
    (inRange_zpow (by norm_num) _ (by norm_num) (by norm_num) (by norm_num))
    (inRange_zpow (by norm_num) _ (by norm_num) (by norm_num) (by norm_num))
    (inRange_zpow (by norm_num) _ (by norm_num) (by norm_num) (by norm_num)) astX_range astX_pos
    (pow_le_1021 (c := 64) (by norm_num) (by norm_num))
  obtain ⟨l3, l4, -, -⟩ := C83_j3_j4_lost astX astA 0 _ _ _ _ a1 a3 a4 a2 astX_le
  exact ⟨⟨A, A', e1, e2, (h _ _ _ rfl rfl rfl).1⟩, l3, l4⟩

/-- J2 and J4 in binary64. -/
example : (∃ A, j2_acc (fin 0 : U64) (finS ⟨⟨(3 : ℕ), (4 : ℕ), (12 : ℕ)⟩, []⟩) (finA fun _ => some ((2 : ℕ) : ℝ)) = .ok (finV A)) ∧
    ∃ A, j4_acc (fin 0 : U64) (finS ⟨⟨(3 : ℕ), (4 : ℕ), (12 : ℕ)⟩, []⟩) (finA fun _ => some ((2 : ℕ) : ℝ)) = .ok (finV A) := by
  have i2 : InRange (FU 53 (-1074)) ((2 : ℝ) ^ 10) ((2 : ℕ) : ℝ) := inRange_nat (by norm_num) 2 (by norm_num) (by norm_num) (by norm_num)
  obtain ⟨A, -, h, -⟩ := C83_j2 uU64 rg64 (bases64 10) (t := 0) (x := ⟨⟨(3 : ℕ), (4 : ℕ), (12 : ℕ)⟩, []⟩)
    (a := fun _ => some ((2 : ℕ) : ℝ)) rfl rfl rfl i2 i2 i2 (inRangeV_pos (by norm_num) (by norm_num)) norm_pos_ex
    (pow_le_1021 (c := 50) (by norm_num) (by norm_num))
  obtain ⟨A2, -, h2, -⟩ := C83_j4 uU64 rg64 (bases64 10) (t := 0) (x := ⟨⟨(3 : ℕ), (4 : ℕ), (12 : ℕ)⟩, []⟩)
    (a := fun _ => some ((2 : ℕ) : ℝ)) rfl rfl rfl i2 i2 i2 (inRangeV_pos (by norm_num) (by norm_num)) norm_pos_ex
    (pow_le_1021 (c := 80) (by norm_num) (by norm_num))
  exact ⟨⟨A, h⟩, ⟨A2, h2⟩⟩

end Adx
