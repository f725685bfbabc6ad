import Verif.Props.C83

/-! # C83: underflow, Lagrange coefficients and vectors -/

namespace Adx
open Spec Fl

section
variable {F : Fp} {u L ν η Ω M B N : ℝ} (hU : UModel F u L ν η) (hM : Rg Ω ν M) (hB : Bases u B N)

/-- A vector of finite numbers. -/
def finV (r : V3 ℝ) : V3 (Fl F Ω) := ⟨fin r.x, fin r.y, fin r.z⟩

/-- A vector with components in range. -/
structure InRangeV (F : Fp) (B : ℝ) (r : V3 ℝ) : Prop where
  x : InRange F B r.x
  y : InRange F B r.y
  z : InRange F B r.z

/-- Componentwise agreement. -/
structure MzV (X : ℝ) (a : V3 (Fl F Ω)) (b : V3 (Rnd (F.noU ν))) : Prop where
  x : Mz X a.x b.x
  y : Mz X a.y b.y
  z : Mz X a.z b.z

/-- The vector as one of the arithmetic without underflow. -/
def rndV (F : Fp) (r : V3 ℝ) : V3 (Rnd F) := ⟨⟨r.x⟩, ⟨r.y⟩, ⟨r.z⟩⟩

include hB in
theorem InRangeV.mz {r : V3 ℝ} (h : InRangeV F B r) : MzV B (finV r : V3 (Fl F Ω)) (rndV (F.noU ν) r) :=
  ⟨h.x.mz hB, h.y.mz hB, h.z.mz hB⟩

section
include hU hM
variable {a b : Fl F Ω} {x y : Rnd (F.noU ν)} {X Y : ℝ} {A A' : V3 (Fl F Ω)} {V V' : V3 (Rnd (F.noU ν))}

/-- Square roots, with the root of the range. -/
theorem Fl.Mz.sqrtSq (h : Mz (Y * Y) a x) (h0 : 0 ≤ x.val) (hY : 0 ≤ Y) (hZ : 2 * Y ≤ M) :
    Mz (2 * Y) (JFun.sqrt a) (JFun.sqrt x) := by
  have hs := Real.sqrt_nonneg x.val
  have hsq := Real.mul_self_sqrt h0
  have hge : Real.sqrt x.val = 0 ∨ 1 ≤ Y * |Real.sqrt x.val| := by
    rcases h.ge with h1 | h1
    · left; rw [h1, Real.sqrt_zero]
    right
    rw [abs_of_nonneg h0] at h1
    rw [abs_of_nonneg hs]
    by_contra hc
    push Not at hc
    have := mul_nonneg hY hs
    nlinarith
  obtain ⟨r1, r2, r3, r4⟩ := rd_mz hU hM (t := Real.sqrt x.val) (Z := Y)
    (by
      rw [abs_of_nonneg hs]
      have := (le_abs_self _).trans h.le
      exact Real.sqrt_le_iff.2 ⟨hY, by rw [_root_.pow_two]; exact this⟩) hge hZ
  have e : (JFun.sqrt x).val = F.rd (Real.sqrt x.val) := r1.symm
  exact ⟨by rw [h.eq, sqrt_fin h0 r2, e], by rw [e]; exact r3, by rw [e]; exact r4, by rw [e]; exact hU.idem _⟩

theorem MzV.norm (h : MzV X A V) (hX : 1 ≤ X) (hZ : 36 * (X * X) ≤ M) : Mz (12 * X) (V3.norm A) (V3.norm V) := by
  have hXX : X ≤ X * X := by nlinarith
  have pos : ∀ {k s t : ℝ}, Within u k s t → 0 ≤ t → 0 ≤ s := by
    rintro k s t ⟨θ, -, rfl⟩ h; exact mul_nonneg h (Real.exp_pos _).le
  have n0 : ∀ w : Rnd (F.noU ν), 0 ≤ (w * w).val := fun w =>
    pos ((Within.ex w).mul hU.std (.ex w)) (mul_self_nonneg _)
  have c1 := h.x.mul hU hM h.x (by linarith)
  have c2 := h.y.mul hU hM h.y (by linarith)
  have c3 := h.z.mul hU hM h.z (by linarith)
  have s1 := c1.add_nonneg hU hM c2 (n0 _) (n0 _) (by linarith)
  have p1 : 0 ≤ (V.x * V.x + V.y * V.y).val := 
    pos (Within.add_exact hU.std _ _) (add_nonneg (n0 _) (n0 _))
  have s2 := s1.add_nonneg hU hM (c3.mono (by linarith)) p1 (n0 _) (by linarith)
  have p2 : 0 ≤ (V.x * V.x + V.y * V.y + V.z * V.z).val :=
    pos (Within.add_exact hU.std _ _) (add_nonneg p1 (n0 _))
  have s3 := (s2.mono (Y := (6 * X) * (6 * X)) (by nlinarith)).sqrtSq hU hM p2 (by linarith) (by linarith)
  exact s3.mono (by linarith)

include hB

theorem MzV.dot (h : MzV X A V) (h' : MzV Y A' V') (hX : 1 ≤ X) (hY : 1 ≤ Y) (hZ : 8 * (X * Y * (N * N)) ≤ M) :
    Mz (8 * (X * Y * (N * N))) (V3.dot A A') (V3.dot V V') := by
  have hN := hB.one_le_N hU
  have h1 : 1 ≤ X * Y := one_le_mul_of_one_le_of_one_le hX hY
  have h2 : X * Y ≤ X * Y * N := le_mul_of_one_le_right (by linarith) hN
  have h3 : X * Y * N ≤ X * Y * (N * N) := by
    rw [← mul_assoc]; exact le_mul_of_one_le_right (by nlinarith) hN
  have c1 := h.x.mul hU hM h'.x (by linarith)
  have c2 := h.y.mul hU hM h'.y (by linarith)
  have c3 := h.z.mul hU hM h'.z (by linarith)
  have s1 := c1.addN hU hM hB c2 (by linarith)
  have s2 := s1.addN hU hM hB (c3.mono (by linarith)) (by linarith)
  exact s2.mono (by linarith)

theorem MzV.cross (h : MzV X A V) (h' : MzV Y A' V') (hX : 1 ≤ X) (hY : 1 ≤ Y) (hZ : 4 * (X * Y * N) ≤ M) :
    MzV (4 * (X * Y * N)) (V3.cross A A') (V3.cross V V') := by
  have hN := hB.one_le_N hU
  have h1 : 1 ≤ X * Y := one_le_mul_of_one_le_of_one_le hX hY
  have h2 : X * Y ≤ X * Y * N := le_mul_of_one_le_right (by linarith) hN
  have key : ∀ {a b c d : Fl F Ω} {a' b' c' d' : Rnd (F.noU ν)}, Mz X a a' → Mz Y b b' → Mz X c c' → Mz Y d d' →
      Mz (4 * (X * Y * N)) (a * b - c * d) (a' * b' - c' * d') := by
    intro a b c d a' b' c' d' p1 p2 p3 p4
    exact ((p1.mul hU hM p2 (by linarith)).subN hU hM hB (p3.mul hU hM p4 (by linarith)) (by linarith)).mono (by linarith)
  exact ⟨key h.y h'.z h.z h'.y, key h.z h'.x h.x h'.z, key h.x h'.y h.y h'.x⟩

theorem mz_ecc {m : Fl F Ω} {m' : Rnd (F.noU ν)} (h : MzV B A V) (h' : MzV B A' V') (hm : Mz B m m') (hm0 : m'.val ≠ 0)
    (hr0 : (V3.norm V).val ≠ 0) (hR : 64 * (B ^ 4 * N ^ 3) ≤ M) :
    MzV (64 * (B ^ 4 * N ^ 3)) (eccentricity_vector A A' m) (eccentricity_vector V V' m') := by
  have hB1 := hB.B
  have hh := h.cross hU hM hB h' hB1 hB1 (by inrange hU hB hR 2 1)
  have hc := h'.cross hU hM hB hh hB1 
    (by obtain ⟨_, h2⟩ := powM (k := 2) (j := 1) hU hB hR (by norm_num) (by norm_num) (by norm_num); linarith) (by inrange hU hB hR 3 2)
  have hn := h.norm hU hM hB1 (by inrange hU hB hR 2 0)
  have key : ∀ {a b : Fl F Ω} {a' b' : Rnd (F.noU ν)}, Mz (4 * (B * (4 * (B * B * N)) * N)) a a' → Mz B b b' →
      Mz (64 * (B ^ 4 * N ^ 3)) (a / m - b / V3.norm A) (a' / m' - b' / V3.norm V) := by
    intro a b a' b' p1 p2
    have q1 := p1.div hU hM hm hm0 (by inrange hU hB hR 4 2)
    have q2 := p2.div hU hM hn hr0 (by inrange hU hB hR 2 0)
    have q3 := q1.subN hU hM hB (q2.mono ?_) (by inrange hU hB hR 4 3)
    · exact q3.mono (le_of_eq (by ring))
    · have hN := hB.one_le_N hU
      have e1 : 1 ≤ B ^ 2 := one_le_pow₀ hB1
      have e2 : 1 ≤ N ^ 2 := one_le_pow₀ hN
      have e3 : B ^ 2 ≤ B ^ 2 * (B ^ 2 * N ^ 2) := le_mul_of_one_le_right (by positivity) (one_le_mul_of_one_le_of_one_le e1 e2)
      nlinarith
  exact ⟨key hc.x h.x, key hc.y h.y, key hc.z h.z⟩

end

include hU hM hB

/-- C83, Lagrange coefficients. -/
theorem C83_lagrange {U1 U2 r r0 s0 mu : ℝ} (h1 : InRange F B U1) (h2 : InRange F B U2) (hr : InRange F B r)
    (hr0 : InRange F B r0) (hs : InRange F B s0) (hmu : InRange F B mu) (r1 : r ≠ 0) (r2 : r0 ≠ 0) (m0 : 0 < mu)
    (hR : 32 * (B ^ 4 * N ^ 1) ≤ M) :
    (∃ f, lagrange_F (fin U2 : Fl F Ω) (fin r0) = fin f ∧ |f - lagrange_F U2 r0| ≤ gam u 2 * (1 + |U2 / r0|)) ∧
    (∃ g, lagrange_G (fin U1 : Fl F Ω) (fin U2) (fin s0) (fin r0) (fin mu) = fin g ∧
      |g - lagrange_G U1 U2 s0 r0 mu| ≤ gam u 4 * ((|r0 * U1| + |s0 * U2|) / Real.sqrt mu)) ∧
    (∃ f, lagrange_Ft (fin U1 : Fl F Ω) (fin r) (fin r0) (fin mu) = fin f ∧
      |f - lagrange_Ft U1 r r0 mu| ≤ gam u 4 * |lagrange_Ft U1 r r0 mu|) ∧
    ∃ g, lagrange_Gt (fin U2 : Fl F Ω) (fin r) = fin g ∧ |g - lagrange_Gt U2 r| ≤ gam u 2 * (1 + |U2 / r|) := by
  have hB1 := hB.B
  have h8 : 8 ≤ M := by inrange hU hB hR 0 0
  have mo := (mz_one hU hM h8).mono (Y := 2 * (B * B)) (by nlinarith)
  have a1 := h1.mz (Ω := Ω) (ν := ν) hB
  have a2 := h2.mz (Ω := Ω) (ν := ν) hB
  have a3 := hr.mz (Ω := Ω) (ν := ν) hB
  have a4 := hr0.mz (Ω := Ω) (ν := ν) hB
  have a5 := hs.mz (Ω := Ω) (ν := ν) hB
  have a6 := (hmu.mz (Ω := Ω) (ν := ν) hB).sqrt hU hM m0.le hB1 (by inrange hU hB hR 1 0)
  have w6 := ((Within.ex (⟨mu⟩ : Rnd (F.noU ν))).sqrt hU.std).ne_iff.2 (Real.sqrt_pos.2 m0).ne'
  have c1 := mo.subN hU hM hB (a2.div hU hM a4 r2 (by inrange hU hB hR 2 0)) (by inrange hU hB hR 2 1)
  have c4 := mo.subN hU hM hB (a2.div hU hM a3 r1 (by inrange hU hB hR 2 0)) (by inrange hU hB hR 2 1)
  have c2 := ((a4.mul hU hM a1 (by inrange hU hB hR 2 0)).addN hU hM hB (a5.mul hU hM a2 (by inrange hU hB hR 2 0))
    (by inrange hU hB hR 2 1)).div hU hM a6 w6 (by inrange hU hB hR 3 1)
  have c3 := (((a6.neg hU).div hU hM a3 r1 (by inrange hU hB hR 2 0)).mul hU hM a1 (by inrange hU hB hR 3 0)).div hU hM a4 r2
    (by inrange hU hB hR 4 0)
  obtain ⟨k1, k2, k3, k4⟩ := C67_lagrange hU.std (⟨U1⟩ : Rnd (F.noU ν)) ⟨U2⟩ ⟨r⟩ ⟨r0⟩ ⟨s0⟩ ⟨mu⟩
  exact ⟨⟨_, c1.eq, k1⟩, ⟨_, c2.eq, k2⟩, ⟨_, c3.eq, k3⟩, ⟨_, c4.eq, k4⟩⟩

/-- C83, generalized anomaly. -/
theorem C83_generalized_anomaly {al s s0 t mu : ℝ} (h1 : InRange F B al) (h2 : InRange F B s) (h3 : InRange F B s0)
    (h4 : InRange F B t) (hmu : InRange F B mu) (m0 : 0 ≤ mu) (hR : 32 * (B ^ 3 * N ^ 2) ≤ M) :
    ∃ x, generalized_anomaly (fin al : Fl F Ω) (fin s) (fin s0) (fin t) (fin mu) = fin x ∧
      |x - generalized_anomaly al s s0 t mu| ≤ gam u 5 * (|al * Real.sqrt mu * t| + |s| + |s0|) := by
  have hB1 := hB.B
  have hN := hB.one_le_N hU
  have g1 : B ≤ 2 * (2 * (B * (2 * B)) * B) := by
    have : B ≤ B * (B * B) := le_mul_of_one_le_right (by linarith) (one_le_mul_of_one_le_of_one_le hB1 hB1)
    linarith
  have a6 := (hmu.mz (Ω := Ω) (ν := ν) hB).sqrt hU hM m0 hB1 (by inrange hU hB hR 1 0)
  have c1 := ((h1.mz (Ω := Ω) (ν := ν) hB).mul hU hM a6 (by inrange hU hB hR 2 0)).mul hU hM (h4.mz hB) (by inrange hU hB hR 3 0)
  have c2 := c1.addN hU hM hB ((h2.mz hB).mono g1) (by inrange hU hB hR 3 1)
  have c3 := c2.subN hU hM hB ((h3.mz hB).mono ?_) (by inrange hU hB hR 3 2)
  · exact ⟨_, c3.eq, C67_generalized_anomaly hU.std (⟨al⟩ : Rnd (F.noU ν)) ⟨s⟩ ⟨s0⟩ ⟨t⟩ ⟨mu⟩⟩
  · have : 0 ≤ 2 * (2 * (B * (2 * B)) * B) := by linarith
    nlinarith

/-- C83, `σ = r·v/√μ`. -/
theorem C83_sigma_fn {r v : V3 ℝ} {mu : ℝ} (hr : InRangeV F B r) (hv : InRangeV F B v) (hmu : InRange F B mu) (m0 : 0 < mu)
    (hR : 32 * (B ^ 3 * N ^ 2) ≤ M) :
    ∃ s, sigma_fn (finV r : V3 (Fl F Ω)) (finV v) (fin mu) = fin s ∧
      |s - sigma_fn r v mu| ≤ gam u 5 * (V3.norm r * V3.norm v / Real.sqrt mu) := by
  have hB1 := hB.B
  have a6 := (hmu.mz (Ω := Ω) (ν := ν) hB).sqrt hU hM m0.le hB1 (by inrange hU hB hR 1 0)
  have w6 := ((Within.ex (⟨mu⟩ : Rnd (F.noU ν))).sqrt hU.std).ne_iff.2 (Real.sqrt_pos.2 m0).ne'
  have c1 := ((hr.mz (Ω := Ω) (ν := ν) hB).dot hU hM hB (hv.mz hB) hB1 hB1 (by inrange hU hB hR 2 2)).div hU hM a6 w6
    (by inrange hU hB hR 3 2)
  exact ⟨_, c1.eq, C67_sigma_fn hU.std (rndV (F.noU ν) r) (rndV _ v) ⟨mu⟩⟩

/-- C83, angular momentum and eccentricity vector. -/
theorem C83_vectors {r v : V3 ℝ} {mu : ℝ} (hr : InRangeV F B r) (hv : InRangeV F B v) (hmu : InRange F B mu) (m0 : mu ≠ 0)
    (r0 : 0 < V3.norm r) (hR : 64 * (B ^ 4 * N ^ 3) ≤ M) :
    (∃ H, angular_momentum (finV r : V3 (Fl F Ω)) (finV v) = finV H ∧
      |H.x - (angular_momentum r v).x| ≤ gam u 2 * (|r.y * v.z| + |r.z * v.y|) ∧
      |H.y - (angular_momentum r v).y| ≤ gam u 2 * (|r.z * v.x| + |r.x * v.z|) ∧
      |H.z - (angular_momentum r v).z| ≤ gam u 2 * (|r.x * v.y| + |r.y * v.x|)) ∧
    ∃ E, eccentricity_vector (finV r : V3 (Fl F Ω)) (finV v) (fin mu) = finV E ∧
      ∀ m, m = 2 * V3.norm r * V3.norm v ^ 2 / |mu| + 1 → |E.x - (eccentricity_vector r v mu).x| ≤ gam u 6 * m ∧
        |E.y - (eccentricity_vector r v mu).y| ≤ gam u 6 * m ∧ |E.z - (eccentricity_vector r v mu).z| ≤ gam u 6 * m := by
  have hB1 := hB.B
  have a1 := hr.mz (Ω := Ω) (ν := ν) hB
  have a2 := hv.mz (Ω := Ω) (ν := ν) hB
  have hh := a1.cross hU hM hB a2 hB1 hB1 (by inrange hU hB hR 2 1)
  have he := mz_ecc hU hM hB a1 a2 (hmu.mz hB) m0 ((within_norm hU.std _).ne_iff.2 r0.ne') hR
  refine ⟨⟨(V3.cross (rndV (F.noU ν) r) (rndV _ v)).re, ?_, C67_angular_momentum hU.std (rndV (F.noU ν) r) (rndV _ v)⟩,
    ⟨(eccentricity_vector (rndV (F.noU ν) r) (rndV _ v) ⟨mu⟩).re, ?_, ?_⟩⟩
  · exact V3.ext hh.x.eq hh.y.eq hh.z.eq
  · exact V3.ext he.x.eq he.y.eq he.z.eq
  · rintro m rfl
    exact C67_eccentricity_vector hU.std (rndV (F.noU ν) r) (rndV _ v) ⟨mu⟩

/-- C83, semiparameter and eccentricity of `rv2coe`. -/
theorem C83_rv2coe_pe {r v : V3 ℝ} {mu : ℝ} (hr : InRangeV F B r) (hv : InRangeV F B v) (hmu : InRange F B mu) (m0 : mu ≠ 0)
    (r0 : 0 < V3.norm r) (hR : 147456 * (B ^ 8 * N ^ 6) ≤ M) :
    (∃ p, (rv2coe (finV r : V3 (Fl F Ω)) (finV v) (fin mu)).p = fin p ∧
      |p - (rv2coe r v mu).p| ≤ gam u 11 * (4 * (V3.norm r * V3.norm v) ^ 2 / |mu|)) ∧
    ∃ e, (rv2coe (finV r : V3 (Fl F Ω)) (finV v) (fin mu)).e = fin e ∧
      |e - (rv2coe r v mu).e| ≤ gam u (17 / 2) * (4 * V3.norm r * V3.norm v ^ 2 / |mu| + 2) := by
  have hB1 := hB.B
  have a1 := hr.mz (Ω := Ω) (ν := ν) hB
  have a2 := hv.mz (Ω := Ω) (ν := ν) hB
  have hh := (a1.cross hU hM hB a2 hB1 hB1 (by inrange hU hB hR 2 1)).norm hU hM
    (by obtain ⟨_, h2⟩ := powM (k := 2) (j := 1) hU hB hR (by norm_num) (by norm_num) (by norm_num); linarith)
    (by inrange hU hB hR 4 2)
  have he := (mz_ecc hU hM hB a1 a2 (hmu.mz hB) m0 ((within_norm hU.std _).ne_iff.2 r0.ne') (by inrange hU hB hR 4 3)).norm hU hM
    (by obtain ⟨_, h2⟩ := powM (k := 4) (j := 3) hU hB hR (by norm_num) (by norm_num) (by norm_num); linarith)
    (by inrange hU hB hR 8 6)
  have hp := (hh.mul hU hM hh (by inrange hU hB hR 4 2)).div hU hM (hmu.mz hB) m0 (by inrange hU hB hR 5 2)
  obtain ⟨k1, k2⟩ := C67_rv2coe_pe hU.std (rndV (F.noU ν) r) (rndV _ v) ⟨mu⟩
  exact ⟨⟨_, hp.eq, k1⟩, ⟨_, he.eq, k2⟩⟩

end
end Adx
