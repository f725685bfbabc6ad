import Verif.Props.C83c

/-! # C83: radii at which the powers of `r` underflow to zero; binary32 and binary64 -/

namespace Adx
open Spec Fl

/-- An infinity or `nan`. -/
def NonFin {F : Fp} {Ω : ℝ} (a : Fl F Ω) : Prop := ∀ x, a ≠ fin x

section
variable {F : Fp} {Ω : ℝ}

theorem nonFin_iff (a : Fl F Ω) : NonFin a ↔ a = pinf ∨ a = ninf ∨ a = nan := by
  obtain ⟨v⟩ := a
  constructor
  · intro h
    cases v with
    | fin x => exact absurd rfl (h x)
    | pinf => exact Or.inl rfl
    | ninf => exact Or.inr (Or.inl rfl)
    | nan => exact Or.inr (Or.inr rfl)
  · rintro (h | h | h) x hx <;> rw [h] at hx <;> exact XR.noConfusion (congrArg Fl.v hx)

theorem XR.infOf_ne (s x : ℝ) : XR.infOf s ≠ XR.fin x := by
  unfold XR.infOf; split_ifs <;> exact fun h => XR.noConfusion h

/-- Division by zero never gives a finite number. -/
theorem NonFin.div_zero (a : Fl F Ω) : NonFin (a / fin 0) := by
  intro x hx
  have h := congrArg Fl.v hx
  change rnd F Ω (XR.div a.v (XR.fin 0)) = XR.fin x at h
  cases hv : a.v with
  | fin y =>
    rw [hv] at h
    simp only [XR.div, if_true] at h
    unfold XR.infOf at h
    split_ifs at h <;> exact XR.noConfusion h
  | pinf => rw [hv] at h; simp only [XR.div, le_refl, if_true] at h; exact XR.noConfusion h
  | ninf => rw [hv] at h; simp only [XR.div, le_refl, if_true] at h; exact XR.noConfusion h
  | nan => rw [hv] at h; exact XR.noConfusion h

theorem rnd_infOf (s x : ℝ) : rnd F Ω (XR.infOf s) ≠ XR.fin x := by
  unfold XR.infOf; split_ifs <;> exact fun h => XR.noConfusion h

/-- Products with an infinity or `nan` are not finite. -/
theorem NonFin.mul {a : Fl F Ω} (ha : NonFin a) (b : Fl F Ω) : NonFin (a * b) := by
  intro x hx
  have h := congrArg Fl.v hx
  change rnd F Ω (XR.mul a.v b.v) = XR.fin x at h
  rcases (nonFin_iff a).1 ha with rfl | rfl | rfl
  · change rnd F Ω (XR.mul .pinf b.v) = XR.fin x at h
    cases hb : b.v <;> rw [hb] at h
    · exact rnd_infOf _ _ h
    all_goals exact XR.noConfusion h
  · change rnd F Ω (XR.mul .ninf b.v) = XR.fin x at h
    cases hb : b.v <;> rw [hb] at h
    · exact rnd_infOf _ _ h
    all_goals exact XR.noConfusion h
  · change rnd F Ω (XR.mul .nan b.v) = XR.fin x at h
    cases hb : b.v <;> rw [hb] at h
    all_goals exact XR.noConfusion h

theorem NonFin.neg {a : Fl F Ω} (ha : NonFin a) : NonFin (-a) := by
  rcases (nonFin_iff a).1 ha with rfl | rfl | rfl
  exacts [(nonFin_iff _).2 (Or.inr (Or.inl rfl)), (nonFin_iff _).2 (Or.inl rfl), (nonFin_iff _).2 (Or.inr (Or.inr rfl))]
end

section
variable {F : Fp} {u L ν η Ω ρ lam : ℝ} (hU : UModel F u L ν η)
include hU

/-- Upper bound of the computed norm. -/
theorem norm_le_fl (a : V3 ℝ) (hΩ : 4 ≤ Ω) (ha : V3.norm a ≤ ρ) (hρ : ρ ≤ 1) (hν : 2000 * ν ≤ ρ ^ 2) :
    ∃ n, V3.norm (finV a : V3 (Fl F Ω)) = fin n ∧ 0 ≤ n ∧ n ≤ 1.006 * ρ := by
  have hu := hU.u_pos
  have hus := hU.u_small
  have hη := hU.eta_nonneg
  have hηn := hU.eta_le
  have hn0 := V3.norm_nonneg a
  have hdd : V3.dot a a = V3.norm a ^ 2 := by
    have := V3.norm_sq' a
    rw [← this]; simp only [V3.dot]; ring
  have hρ0 : 0 ≤ ρ := hn0.trans ha
  have hS : V3.dot a a ≤ ρ ^ 2 := by rw [hdd]; exact pow_le_pow_left₀ hn0 ha 2
  have hS0 : 0 ≤ V3.dot a a := by rw [hdd]; positivity
  have hρ2 : ρ ^ 2 ≤ ρ := by nlinarith
  obtain ⟨s, s0, s1, e⟩ := normU_fl hU a (Ω := Ω) hΩ (by linarith [hU.nu_small])
  refine ⟨_, e, hU.nonneg _ (Real.sqrt_nonneg _), ?_⟩
  have uS : u * V3.dot a a ≤ V3.dot a a / 1000 := by nlinarith
  have s2 : s ≤ 1.006 * ρ ^ 2 := by have := (abs_le.1 s1).2; linarith
  have s3 : Real.sqrt s ≤ 1.004 * ρ := Real.sqrt_le_iff.2 ⟨by linarith, by nlinarith [sq_nonneg ρ]⟩
  have s4 := (UModel_err_nonneg hU (Real.sqrt_nonneg s)).2
  have s5 : u * Real.sqrt s ≤ 1 / 1000 * (1.004 * ρ) := mul_le_mul hus s3 (Real.sqrt_nonneg _) (by norm_num)
  linarith

/-- Powers before underflow. -/
theorem pow_le_fl {n σ : ℝ} (hΩ : 4 ≤ Ω) (n0 : 0 ≤ n) (hn : 1.002 * n ≤ σ) (hσ : σ ≤ 1) :
    ∀ k : ℕ, 2002 * ν ≤ σ ^ (k + 1) → ∃ P, (fin n : Fl F Ω) ^ (k + 1) = fin P ∧ 0 ≤ P ∧ P ≤ σ ^ (k + 1)
  | 0, _ => ⟨n, rfl, n0, by rw [zero_add, pow_one]; linarith⟩
  | k + 1, hk => by
    have hu := hU.u_pos
    have hus := hU.u_small
    have hσ0 : 0 ≤ σ := by linarith
    have hle : σ ^ (k + 2) ≤ σ ^ (k + 1) := pow_le_pow_of_le_one hσ0 hσ (by omega)
    obtain ⟨P, e, P0, hP⟩ := pow_le_fl hΩ n0 hn hσ k (hk.trans hle)
    have t0 : 0 ≤ P * n := mul_nonneg P0 n0
    have t1 : 1.002 * (P * n) ≤ σ ^ (k + 2) := by
      calc 1.002 * (P * n) = P * (1.002 * n) := by ring
        _ ≤ σ ^ (k + 1) * σ := mul_le_mul hP hn (by linarith) (by positivity)
        _ = _ := by ring
    have h1 : σ ^ (k + 2) ≤ 1 := pow_le_one₀ hσ0 hσ
    have r1 := (UModel_err_nonneg hU t0).2
    have r2 : u * (P * n) ≤ 1 / 1000 * (P * n) := mul_le_mul_of_nonneg_right hus t0
    have r3 := hU.eta_le
    have r4 : F.rd (P * n) ≤ σ ^ (k + 2) := by linarith
    have r5 := hU.nonneg _ t0
    exact ⟨_, by
      rw [show (fin n : Fl F Ω) ^ (k + 1 + 1) = (fin n) ^ (k + 1) * fin n from rfl, e]
      exact mul_fin (by rw [abs_of_nonneg r5]; linarith), r5, r4⟩

/-- A power of the radius that is lost: the last but one multiplication may be subnormal, the last one gives zero. -/
theorem pow_lost {n σ : ℝ} (hl : ∀ x, |x| ≤ lam → F.rd x = 0) (hΩ : 4 ≤ Ω) (n0 : 0 ≤ n) (hn : 1.002 * n ≤ σ) (hσ : σ ≤ 1)
    (k : ℕ) (hk : 2002 * ν ≤ σ ^ (k + 1)) (hlam : (σ ^ (k + 2) + η) * σ ≤ lam) : (fin n : Fl F Ω) ^ (k + 3) = fin 0 := by
  have hus := hU.u_small
  have hη := hU.eta_nonneg
  have hσ0 : 0 ≤ σ := by linarith
  obtain ⟨P, e, P0, hP⟩ := pow_le_fl hU hΩ n0 hn hσ k hk
  have t0 : 0 ≤ P * n := mul_nonneg P0 n0
  have t1 : 1.002 * (P * n) ≤ σ ^ (k + 2) := by
    calc 1.002 * (P * n) = P * (1.002 * n) := by ring
      _ ≤ σ ^ (k + 1) * σ := mul_le_mul hP hn (by linarith) (by positivity)
      _ = _ := by ring
  have h1 : σ ^ (k + 2) ≤ 1 := pow_le_one₀ hσ0 hσ
  have r1 := (UModel_err_nonneg hU t0).2
  have r2 : u * (P * n) ≤ 1 / 1000 * (P * n) := mul_le_mul_of_nonneg_right hus t0
  have r4 : F.rd (P * n) ≤ σ ^ (k + 2) + η := by linarith
  have r5 := hU.nonneg _ t0
  have r6 : η ≤ 1 / 1000 := hU.eta_le.trans hU.nu_small
  have q0 : 0 ≤ F.rd (P * n) * n := mul_nonneg r5 n0
  have q1 : F.rd (P * n) * n ≤ lam := by
    refine le_trans (mul_le_mul r4 (by linarith) n0 (by positivity)) hlam
  have q2 := hl (F.rd (P * n) * n) (by rwa [abs_of_nonneg q0])
  rw [show (fin n : Fl F Ω) ^ (k + 3) = (fin n) ^ (k + 1) * fin n * fin n from rfl, e,
    mul_fin (by rw [abs_of_nonneg r5]; linarith), mul_fin (by rw [q2, abs_zero]; linarith), q2]

end

/-! ### binary32 and binary64 with underflow -/

/-- binary32 with gradual underflow and with flush to zero, binary64 with gradual underflow. -/
abbrev U32 := Fl (FU 24 (-149)) omega32
/-- binary32, subnormal results flushed to zero -/
abbrev Z32 := Fl (FZ 24 (-149)) omega32
/-- binary64 with gradual underflow -/
abbrev U64 := Fl (FU 53 (-1074)) omega64

theorem nu32 : nuB 24 (-149) = (2 : ℝ) ^ (-126 : ℤ) := by unfold nuB; norm_num
theorem nu64 : nuB 53 (-1074) = (2 : ℝ) ^ (-1022 : ℤ) := by unfold nuB; norm_num

theorem uU32 : UModel (FU 24 (-149)) ((2 : ℝ) ^ (-24 : ℤ)) 1 ((2 : ℝ) ^ (-126 : ℤ)) ((2 : ℝ) ^ (-150 : ℤ)) := by
  have := uModel_FU (p := 24) (by norm_num) (q := -149) (by norm_num)
  rw [nu32] at this
  norm_num at this ⊢; exact this
theorem uZ32 : UModel (FZ 24 (-149)) ((2 : ℝ) ^ (-24 : ℤ)) 1 ((2 : ℝ) ^ (-126 : ℤ)) ((2 : ℝ) ^ (-126 : ℤ)) := by
  have := uModel_FZ (p := 24) (by norm_num) (q := -149) (by norm_num)
  rw [nu32] at this
  norm_num at this ⊢; exact this
theorem uU64 : UModel (FU 53 (-1074)) ((2 : ℝ) ^ (-53 : ℤ)) 1 ((2 : ℝ) ^ (-1022 : ℤ)) ((2 : ℝ) ^ (-1075 : ℤ)) := by
  have := uModel_FU (p := 53) (by norm_num) (q := -1074) (by norm_num)
  rw [nu64] at this
  norm_num at this ⊢; exact this

theorem lostU32 (x : ℝ) (h : |x| ≤ (2 : ℝ) ^ (-150 : ℤ)) : (FU 24 (-149)).rd x = 0 :=
  rdU_lost (by norm_num) (by norm_num at h ⊢; exact h)
theorem lostZ32 (x : ℝ) (h : |x| ≤ (2 : ℝ) ^ (-127 : ℤ)) : (FZ 24 (-149)).rd x = 0 :=
  rdZ_tiny (lt_of_le_of_lt h (by rw [nu32]; exact zpow_lt_zpow_right₀ (by norm_num) (by norm_num)))

theorem rg32 : Rg omega32 ((2 : ℝ) ^ (-126 : ℤ)) ((2 : ℝ) ^ (125 : ℕ)) :=
  ⟨by unfold omega32; norm_num, by norm_num, by norm_num⟩
theorem rg64 : Rg omega64 ((2 : ℝ) ^ (-1022 : ℤ)) ((2 : ℝ) ^ (1021 : ℕ)) :=
  ⟨by
    unfold omega64
    rw [show (1021 : ℕ) = 50 + 971 from rfl, _root_.pow_add]
    exact mul_le_mul_of_nonneg_right (by norm_num) (by positivity), by
    rw [← zpow_natCast, ← zpow_add₀ (by norm_num)]
    exact zpow_le_one_of_nonpos₀ (by norm_num) (by norm_num), one_le_pow₀ (by norm_num)⟩

/-- Every component of an acceleration is an infinity or `nan`. -/
def AllNonFin {F : Fp} {Ω : ℝ} (A : V3 (Fl F Ω)) : Prop := NonFin A.x ∧ NonFin A.y ∧ NonFin A.z

section
variable {F : Fp} {Ω : ℝ}

/-- If the power of the radius is zero, so are all components infinite or `nan`. -/
theorem zonal_nonFin (t : Fl F Ω) (x : State (Fl F Ω)) (a : Args (Fl F Ω)) (mu : Fl F Ω) (hmu : a "mu" = some mu) :
    (V3.norm x.pos ^ 3 = fin 0 → ∃ A, point_mass_grav t x a = .ok A ∧ AllNonFin A) ∧
    (∀ J R, a "J2" = some J → a "R_eq" = some R → V3.norm x.pos ^ 5 = fin 0 → ∃ A, j2_acc t x a = .ok A ∧ AllNonFin A) ∧
    (∀ J R, a "J3" = some J → a "R_eq" = some R → V3.norm x.pos ^ 7 = fin 0 → ∃ A, j3_acc t x a = .ok A ∧ AllNonFin A) ∧
    (∀ J R, a "J4" = some J → a "R_eq" = some R → V3.norm x.pos ^ 7 = fin 0 → ∃ A, j4_acc t x a = .ok A ∧ AllNonFin A) := by
  refine ⟨fun h => ?_, fun J R hJ hR h => ?_, fun J R hJ hR h => ?_, fun J R hJ hR h => ?_⟩
  · refine ⟨_, by simp only [point_mass_grav, Args.get, hmu]; rfl, ?_⟩
    rw [h]
    exact ⟨(NonFin.div_zero _).neg.mul _, (NonFin.div_zero _).neg.mul _, (NonFin.div_zero _).neg.mul _⟩
  · refine ⟨_, by simp only [j2_acc, Args.get, hmu, hJ, hR]; rfl, ?_⟩
    rw [h]
    exact ⟨((NonFin.div_zero _).mul _).mul _, ((NonFin.div_zero _).mul _).mul _, ((NonFin.div_zero _).mul _).mul _⟩
  · refine ⟨_, by simp only [j3_acc, Args.get, hmu, hJ, hR]; rfl, ?_⟩
    rw [h]
    exact ⟨((NonFin.div_zero _).mul _).mul _, ((NonFin.div_zero _).mul _).mul _, (NonFin.div_zero _).mul _⟩
  · refine ⟨_, by simp only [j4_acc, Args.get, hmu, hJ, hR]; rfl, ?_⟩
    rw [h]
    exact ⟨((NonFin.div_zero _).mul _).mul _, ((NonFin.div_zero _).mul _).mul _, ((NonFin.div_zero _).mul _).mul _⟩
end

theorem omega32_four : (4 : ℝ) ≤ omega32 := by unfold omega32; norm_num

/-- The radii at which the powers are lost in binary32. -/
theorem lost32 (a : V3 ℝ) :
    (V3.norm a ≤ (2 : ℝ) ^ (-22 : ℤ) → V3.norm (finV a : V3 U32) ^ 7 = fin 0 ∧ V3.norm (finV a : V3 Z32) ^ 7 = fin 0) ∧
    (V3.norm a ≤ (2 : ℝ) ^ (-31 : ℤ) → V3.norm (finV a : V3 U32) ^ 5 = fin 0 ∧ V3.norm (finV a : V3 Z32) ^ 5 = fin 0) ∧
    (V3.norm a ≤ (2 : ℝ) ^ (-51 : ℤ) → V3.norm (finV a : V3 U32) ^ 3 = fin 0 ∧ V3.norm (finV a : V3 Z32) ^ 3 = fin 0) := by
  refine ⟨fun h => ⟨?_, ?_⟩, fun h => ⟨?_, ?_⟩, fun h => ⟨?_, ?_⟩⟩
  · obtain ⟨n, e, n0, hn⟩ := norm_le_fl uU32 a omega32_four h (by norm_num) (by norm_num)
    rw [e]
    exact pow_lost uU32 (σ := 1.01 * 2 ^ (-22 : ℤ)) lostU32 omega32_four n0 (by norm_num at hn ⊢; linarith) (by norm_num) 4
      (by norm_num) (by norm_num)
  · obtain ⟨n, e, n0, hn⟩ := norm_le_fl uZ32 a omega32_four h (by norm_num) (by norm_num)
    rw [e]
    exact pow_lost uZ32 (σ := 1.01 * 2 ^ (-22 : ℤ)) lostZ32 omega32_four n0 (by norm_num at hn ⊢; linarith) (by norm_num) 4
      (by norm_num) (by norm_num)
  · obtain ⟨n, e, n0, hn⟩ := norm_le_fl uU32 a omega32_four h (by norm_num) (by norm_num)
    rw [e]
    exact pow_lost uU32 (σ := 1.01 * 2 ^ (-31 : ℤ)) lostU32 omega32_four n0 (by norm_num at hn ⊢; linarith) (by norm_num) 2
      (by norm_num) (by norm_num)
  · obtain ⟨n, e, n0, hn⟩ := norm_le_fl uZ32 a omega32_four h (by norm_num) (by norm_num)
    rw [e]
    exact pow_lost uZ32 (σ := 1.01 * 2 ^ (-31 : ℤ)) lostZ32 omega32_four n0 (by norm_num at hn ⊢; linarith) (by norm_num) 2
      (by norm_num) (by norm_num)
  · obtain ⟨n, e, n0, hn⟩ := norm_le_fl uU32 a omega32_four h (by norm_num) (by norm_num)
    rw [e]
    exact pow_lost uU32 (σ := 1.01 * 2 ^ (-51 : ℤ)) lostU32 omega32_four n0 (by norm_num at hn ⊢; linarith) (by norm_num) 0
      (by norm_num) (by norm_num)
  · obtain ⟨n, e, n0, hn⟩ := norm_le_fl uZ32 a omega32_four h (by norm_num) (by norm_num)
    rw [e]
    exact pow_lost uZ32 (σ := 1.01 * 2 ^ (-51 : ℤ)) lostZ32 omega32_four n0 (by norm_num at hn ⊢; linarith) (by norm_num) 0
      (by norm_num) (by norm_num)

/-- The arguments as floating-point numbers. -/
def finA {F : Fp} {Ω : ℝ} (a : Args ℝ) : Args (Fl F Ω) := fun k => (a k).map fin

/-- C83, `r⁷` lost: in binary32, with gradual underflow or flush to zero, every component of the J3 and J4 accelerations is an
infinity or `nan` when `‖r‖ ≤ 2⁻²²` (35 km if lengths are in astronomical units), for all values of the parameters. -/
theorem C83_j3_j4_lost (x : State ℝ) (a : Args ℝ) (t mu J3 J4 R : ℝ) (hmu : a "mu" = some mu) (h3 : a "J3" = some J3)
    (h4 : a "J4" = some J4) (hR : a "R_eq" = some R) (h : V3.norm x.pos ≤ (2 : ℝ) ^ (-22 : ℤ)) :
    (∃ A, j3_acc (fin t : U32) (finS x) (finA a) = .ok A ∧ AllNonFin A) ∧
    (∃ A, j4_acc (fin t : U32) (finS x) (finA a) = .ok A ∧ AllNonFin A) ∧
    (∃ A, j3_acc (fin t : Z32) (finS x) (finA a) = .ok A ∧ AllNonFin A) ∧
    (∃ A, j4_acc (fin t : Z32) (finS x) (finA a) = .ok A ∧ AllNonFin A) := by
  have key : ∀ {F : Fp} {Ω : ℝ} {k : String} {v : ℝ}, a k = some v → (finA a : Args (Fl F Ω)) k = some (fin v) := by
    intro F Ω k v hk; simp [finA, hk]
  obtain ⟨e1, e2⟩ := (lost32 x.pos).1 h
  obtain ⟨-, -, p3, p4⟩ := zonal_nonFin (fin t : U32) (finS x) (finA a) _ (key hmu)
  obtain ⟨-, -, q3, q4⟩ := zonal_nonFin (fin t : Z32) (finS x) (finA a) _ (key hmu)
  exact ⟨p3 _ _ (key h3) (key hR) e1, p4 _ _ (key h4) (key hR) e1, q3 _ _ (key h3) (key hR) e2, q4 _ _ (key h4) (key hR) e2⟩

/-- C83, the same for J2 at `‖r‖ ≤ 2⁻³¹` and for the point mass at `‖r‖ ≤ 2⁻⁵¹`. -/
theorem C83_j2_mu_lost (x : State ℝ) (a : Args ℝ) (t mu J2 R : ℝ) (hmu : a "mu" = some mu) (h2 : a "J2" = some J2)
    (hR : a "R_eq" = some R) :
    (V3.norm x.pos ≤ (2 : ℝ) ^ (-31 : ℤ) → (∃ A, j2_acc (fin t : U32) (finS x) (finA a) = .ok A ∧ AllNonFin A) ∧
      ∃ A, j2_acc (fin t : Z32) (finS x) (finA a) = .ok A ∧ AllNonFin A) ∧
    (V3.norm x.pos ≤ (2 : ℝ) ^ (-51 : ℤ) → (∃ A, point_mass_grav (fin t : U32) (finS x) (finA a) = .ok A ∧ AllNonFin A) ∧
      ∃ A, point_mass_grav (fin t : Z32) (finS x) (finA a) = .ok A ∧ AllNonFin A) := by
  have key : ∀ {F : Fp} {Ω : ℝ} {k : String} {v : ℝ}, a k = some v → (finA a : Args (Fl F Ω)) k = some (fin v) := by
    intro F Ω k v hk; simp [finA, hk]
  obtain ⟨p0, p2, -, -⟩ := zonal_nonFin (fin t : U32) (finS x) (finA a) _ (key hmu)
  obtain ⟨q0, q2, -, -⟩ := zonal_nonFin (fin t : Z32) (finS x) (finA a) _ (key hmu)
  refine ⟨fun h => ?_, fun h => ?_⟩
  · obtain ⟨e1, e2⟩ := (lost32 x.pos).2.1 h
    exact ⟨p2 _ _ (key h2) (key hR) e1, q2 _ _ (key h2) (key hR) e2⟩
  · obtain ⟨e1, e2⟩ := (lost32 x.pos).2.2 h
    exact ⟨p0 e1, q0 e2⟩

end Adx
