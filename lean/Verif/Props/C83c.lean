import Verif.Props.C83b

/-! # C83: underflow, norms and accelerations

The norm is accurate however small the smaller components are, provided the largest one is not tiny, and with it the point-mass
acceleration. The powers `r⁵` and `r⁷` of the zonal accelerations underflow to zero at radii that are not tiny: then every
component of the acceleration is an infinity or `nan`. -/

namespace Adx
open Spec Fl

section
variable {F : Fp} {u L ν η Ω M B : ℝ} (hU : UModel F u L ν η)

section
include hU

/-- The error of a rounding, whatever the magnitude. -/
theorem UModel_err (t : ℝ) : |F.rd t - t| ≤ u * |t| + η := by
  have h0 := hU.u_pos
  rcases le_or_gt ν |t| with h | h
  · have := hU.rd t h
    linarith [hU.eta_nonneg]
  · have := hU.tiny t h
    have := mul_nonneg h0.le (abs_nonneg t)
    linarith

theorem UModel_err_nonneg {t : ℝ} (ht : 0 ≤ t) : t - (u * t + η) ≤ F.rd t ∧ F.rd t ≤ t + (u * t + η) := by
  have h := UModel_err hU t
  rw [abs_of_nonneg ht] at h
  have := abs_le.1 h
  exact ⟨by linarith, by linarith⟩

/-- The sum of squares. -/
theorem sumSq_err (a : V3 ℝ) : ∃ s, 0 ≤ s ∧ s = F.rd (F.rd (F.rd (a.x * a.x) + F.rd (a.y * a.y)) + F.rd (a.z * a.z)) ∧
    F.rd (a.x * a.x) + F.rd (a.y * a.y) ≤ 1.01 * V3.dot a a + 6 * η ∧
    F.rd (F.rd (a.x * a.x) + F.rd (a.y * a.y)) + F.rd (a.z * a.z) ≤ 1.01 * V3.dot a a + 6 * η ∧
    |s - V3.dot a a| ≤ 3.01 * (u * V3.dot a a) + 5.01 * η := by
  have hu := hU.u_pos
  have hus := hU.u_small
  have hη := hU.eta_nonneg
  have hx := mul_self_nonneg a.x
  have hy := mul_self_nonneg a.y
  have hz := mul_self_nonneg a.z
  have nx := hU.nonneg _ hx
  have ny := hU.nonneg _ hy
  have nz := hU.nonneg _ hz
  obtain ⟨x1, x2⟩ := UModel_err_nonneg hU hx
  obtain ⟨y1, y2⟩ := UModel_err_nonneg hU hy
  obtain ⟨z1, z2⟩ := UModel_err_nonneg hU hz
  have e : V3.dot a a = a.x * a.x + a.y * a.y + a.z * a.z := rfl
  rw [e]
  set X := a.x * a.x
  set Y := a.y * a.y
  set Z := a.z * a.z
  set x' := F.rd X
  set y' := F.rd Y
  set z' := F.rd Z
  have n1 : 0 ≤ x' + y' := by linarith
  have n2 := hU.nonneg _ n1
  obtain ⟨s1, s2⟩ := UModel_err_nonneg hU n1
  set w := F.rd (x' + y')
  have n3 : 0 ≤ w + z' := by linarith
  obtain ⟨t1, t2⟩ := UModel_err_nonneg hU n3
  have uS : ∀ {t c : ℝ}, t ≤ c → u * t ≤ u * c := fun h => mul_le_mul_of_nonneg_left h hu.le
  have small : ∀ {t : ℝ}, 0 ≤ t → u * t ≤ t / 1000 := fun {t} h => by nlinarith
  have k1 : x' + y' ≤ (1 + u) * (X + Y) + 2 * η := by linarith
  have k2 := uS k1
  have k3 := small hη
  have k4 := small (mul_nonneg hu.le (by linarith : 0 ≤ X + Y))
  have k5 := small (by linarith : 0 ≤ X + Y)
  have k6 := small hz
  have k7 : u * (x' + y') ≤ 1.001 * (u * (X + Y)) + 2 * (u * η) := by nlinarith
  have k8 : w + z' ≤ 1.003 * (X + Y) + 1.001 * Z + 4.01 * η := by linarith
  have k9 := uS k8
  have k10 : u * (w + z') ≤ 1.003 * (u * (X + Y)) + 1.001 * (u * Z) + 4.01 * (u * η) := by linarith
  have k11 := mul_nonneg hu.le hz
  have k12 := mul_nonneg hu.le (by linarith : 0 ≤ X + Y)
  refine ⟨_, hU.nonneg _ n3, rfl, by linarith, by linarith, abs_le.2 ⟨?_, ?_⟩⟩
  · linarith
  · linarith

theorem normU_fl (a : V3 ℝ) (hΩ : 4 ≤ Ω) (hd : 2 * V3.dot a a + 8 * η ≤ Ω) :
    ∃ s, 0 ≤ s ∧ |s - V3.dot a a| ≤ 3.01 * (u * V3.dot a a) + 5.01 * η ∧
      V3.norm (finV a : V3 (Fl F Ω)) = fin (F.rd (Real.sqrt s)) := by
  have hu := hU.u_pos
  have hus := hU.u_small
  have hη := hU.eta_nonneg
  have hν : η ≤ 1 / 1000 := hU.eta_le.trans hU.nu_small
  obtain ⟨s, h0, h1, h2, h3, h4⟩ := sumSq_err hU a
  have hx := mul_self_nonneg a.x
  have hy := mul_self_nonneg a.y
  have hz := mul_self_nonneg a.z
  have hD : V3.dot a a = a.x * a.x + a.y * a.y + a.z * a.z := rfl
  have nx := hU.nonneg _ hx
  have ny := hU.nonneg _ hy
  have nz := hU.nonneg _ hz
  have n1 := hU.nonneg _ (add_nonneg nx ny)
  have hS : 0 ≤ V3.dot a a := by rw [hD]; linarith
  have small : ∀ {t : ℝ}, 0 ≤ t → F.rd t ≤ 1.001 * t + η := fun {t} h => by
    have := (UModel_err_nonneg hU h).2
    nlinarith
  have bx := small hx
  have by' := small hy
  have bz := small hz
  have b1 := small (add_nonneg nx ny)
  have b2 := small (add_nonneg n1 nz)
  have uS : u * V3.dot a a ≤ V3.dot a a / 1000 := by nlinarith
  have hs : s ≤ Ω := by have := (abs_le.1 h4).2; linarith
  have hsq : Real.sqrt s ≤ 1 + s / 2 := by
    nlinarith [Real.sq_sqrt h0, Real.sqrt_nonneg s, sq_nonneg (Real.sqrt s - 1)]
  have bs := small (Real.sqrt_nonneg s)
  have ns := hU.nonneg _ (Real.sqrt_nonneg s)
  refine ⟨s, h0, h4, ?_⟩
  show JFun.sqrt ((fin a.x * fin a.x + fin a.y * fin a.y + fin a.z * fin a.z : Fl F Ω)) = _
  rw [mul_fin (by rw [abs_of_nonneg nx]; linarith), mul_fin (by rw [abs_of_nonneg ny]; linarith),
    mul_fin (by rw [abs_of_nonneg nz]; linarith), add_fin (by rw [abs_of_nonneg n1]; linarith),
    add_fin (by rw [abs_of_nonneg (h1 ▸ h0), ← h1]; exact hs), ← h1,
    sqrt_fin h0 (by rw [abs_of_nonneg ns]; linarith)]

/-- C83, norm: relative error at most `4u`, however small the smaller components are. -/
theorem C83_norm (a : V3 ℝ) (hΩ : 4 ≤ Ω) (hd : 3 * V3.dot a a ≤ Ω) (h1 : 8 * η ≤ u * V3.dot a a) (h2 : 8 * ν ≤ V3.dot a a) :
    ∃ n, V3.norm (finV a : V3 (Fl F Ω)) = fin n ∧ F.rd n = n ∧ |n - V3.norm a| ≤ 4 * u * V3.norm a := by
  have hu := hU.u_pos
  have hus := hU.u_small
  have hη := hU.eta_nonneg
  have hν := hU.nu_pos
  have hνs := hU.nu_small
  have hS : 0 < V3.dot a a := by linarith
  have uS : u * V3.dot a a ≤ V3.dot a a / 1000 := by nlinarith
  obtain ⟨s, s0, s1, e⟩ := normU_fl hU a hΩ (by linarith)
  refine ⟨_, e, hU.idem _, ?_⟩
  have s2 : |s - V3.dot a a| ≤ 4 * (u * V3.dot a a) := by linarith
  have s3 := abs_le.1 s2
  have en : V3.norm a = Real.sqrt (V3.dot a a) := rfl
  rw [en]
  set S := V3.dot a a
  have q0 := Real.sqrt_nonneg s
  have q1 := Real.sq_sqrt s0
  have q2 := Real.sqrt_pos.2 hS
  have q3 := Real.sq_sqrt hS.le
  set r := Real.sqrt s
  set R := Real.sqrt S
  have lo : 0.99 * R ≤ r := by
    by_contra hc
    push Not at hc
    nlinarith
  have hi : r ≤ 1.01 * R := by
    by_contra hc
    push Not at hc
    nlinarith
  have d1 : |r - R| * (1.99 * R) ≤ 4 * u * R * R := by
    calc |r - R| * (1.99 * R) ≤ |r - R| * (r + R) := mul_le_mul_of_nonneg_left (by linarith) (abs_nonneg _)
      _ = |s - S| := by rw [← abs_of_nonneg (by linarith : 0 ≤ r + R), ← abs_mul, ← q1, ← q3]; congr 1; ring
      _ ≤ 4 * (u * S) := s2
      _ = 4 * u * R * R := by rw [← q3]; ring
  have d2 : |r - R| ≤ 2.02 * u * R := by
    by_contra hc
    push Not at hc
    have : 2.02 * u * R * (1.99 * R) < |r - R| * (1.99 * R) := mul_lt_mul_of_pos_right hc (by linarith)
    nlinarith [mul_pos (mul_pos hu q2) q2]
  have hr : ν ≤ |r| := by
    rw [abs_of_nonneg q0]
    by_contra hc
    push Not at hc
    nlinarith
  have d3 := hU.rd r hr
  rw [abs_of_nonneg q0] at d3
  have d4 : u * r ≤ u * (1.01 * R) := mul_le_mul_of_nonneg_left hi hu.le
  have := abs_sub_le (F.rd r) r R
  have := mul_pos hu q2
  linarith

/-- An error of `4u` is at most that of five roundings. -/
theorem within_of_four {n R : ℝ} (hR : 0 < R) (h : |n - R| ≤ 4 * u * R) : Within u 5 n R := by
  have hu := hU.u_pos
  have hus := hU.u_small
  have h1 := abs_le.1 h
  have uR := mul_pos hu hR
  have hn : 0 < n := by nlinarith
  have hp : (0 : ℝ) < 1 - u := by linarith
  refine ⟨Real.log (n / R), ?_, ?_⟩
  · have e1 : (5 : ℝ) * -Real.log (1 - u) = -Real.log ((1 - u) ^ 5) := by rw [Real.log_pow]; push_cast; ring
    have p5 : (1 - u) ^ 5 ≤ 1 - 4 * u := by
      have : (1 - u) ^ 5 = 1 - 5 * u + 10 * u ^ 2 - 10 * u ^ 3 + 5 * u ^ 4 - u ^ 5 := by ring
      rw [this]
      have a2 : u ^ 2 ≤ u / 1000 := by nlinarith
      have a3 : 0 ≤ u ^ 3 := by positivity
      have a4 : u ^ 4 ≤ u ^ 2 := pow_le_pow_of_le_one hu.le (by linarith) (by norm_num)
      have a5 : 0 ≤ u ^ 5 := by positivity
      linarith
    have p5' : 0 < (1 - u) ^ 5 := by positivity
    rw [e1, abs_le, neg_neg]
    constructor
    · refine Real.log_le_log p5' (p5.trans ?_)
      rw [le_div_iff₀ hR]; linarith
    · rw [← Real.log_inv]
      refine Real.log_le_log (by positivity) ?_
      rw [le_inv_comm₀ (by positivity) p5', inv_div]
      refine p5.trans ?_
      rw [le_div_iff₀ hn]
      nlinarith
  · rw [Real.exp_log (by positivity)]; field_simp

/-- The last multiplication. -/
theorem mul_step {c q y K : ℝ} (hcq : |c - q| ≤ 18.5 * u * |q|) (hK : |c * y| ≤ K) (hΩ : 2 * K + 1 ≤ Ω) :
    ∃ A, (fin c * fin y : Fl F Ω) = fin A ∧ |A - q * y| ≤ 20 * u * |q * y| + η := by
  have hu := hU.u_pos
  have hus := hU.u_small
  have e1 := UModel_err hU (c * y)
  have n0 := abs_nonneg (c * y)
  have n1 := abs_nonneg (q * y)
  have e2 : |F.rd (c * y)| ≤ Ω := by
    have := abs_sub_abs_le_abs_sub (F.rd (c * y)) (c * y)
    have : u * |c * y| ≤ |c * y| := by nlinarith
    have := hU.eta_le.trans hU.nu_small
    linarith
  refine ⟨_, mul_fin e2, ?_⟩
  have e4 : |c * y - q * y| ≤ 18.5 * u * |q * y| := by
    rw [← sub_mul, abs_mul, abs_mul]
    calc |c - q| * |y| ≤ 18.5 * u * |q| * |y| := mul_le_mul_of_nonneg_right hcq (abs_nonneg _)
      _ = _ := by ring
  have e5 : |c * y| ≤ 1.02 * |q * y| := by
    have := abs_sub_abs_le_abs_sub (c * y) (q * y)
    have : u * |q * y| ≤ 1 / 1000 * |q * y| := mul_le_mul_of_nonneg_right hus n1
    linarith
  have e6 : u * |c * y| ≤ u * (1.02 * |q * y|) := mul_le_mul_of_nonneg_left e5 hu.le
  have e7 := abs_sub_le (F.rd (c * y)) (c * y) (q * y)
  have e8 := mul_nonneg hu.le n1
  linarith

end

theorem comp_le_norm (a : V3 ℝ) : |a.x| ≤ V3.norm a ∧ |a.y| ≤ V3.norm a ∧ |a.z| ≤ V3.norm a := by
  have h := V3.norm_sq' a
  have h0 := V3.norm_nonneg a
  have hx := sq_nonneg a.x
  have hy := sq_nonneg a.y
  have hz := sq_nonneg a.z
  exact ⟨abs_le_of_sq_le_sq (by linarith) h0, abs_le_of_sq_le_sq (by linarith) h0, abs_le_of_sq_le_sq (by linarith) h0⟩

/-- A state of finite numbers. -/
def finS (x : State ℝ) : State (Fl F Ω) := ⟨finV x.pos, x.rest.map fin⟩

include hU in
/-- C83, point mass: components of any size, relative error `20u` and one underflow. -/
theorem C83_point_mass (hM : Rg Ω ν M) (hB : 1 ≤ B) {t : Fl F Ω} {x : State ℝ} {a : Args (Fl F Ω)} {mu : ℝ}
    (ha : a "mu" = some (fin mu)) (hmu : InRange F B mu) (h1 : 1 / B ≤ V3.norm x.pos) (h2 : V3.norm x.pos ≤ B)
    (hR : 256 * B ^ 5 ≤ M) (hη : 8 * η * B ^ 2 ≤ u) :
    ∃ A, point_mass_grav t (finS x) a = .ok (finV A) ∧
      |A.x - -(mu / V3.norm x.pos ^ 3) * x.pos.x| ≤ 20 * u * |mu / V3.norm x.pos ^ 3 * x.pos.x| + η ∧
      |A.y - -(mu / V3.norm x.pos ^ 3) * x.pos.y| ≤ 20 * u * |mu / V3.norm x.pos ^ 3 * x.pos.y| + η ∧
      |A.z - -(mu / V3.norm x.pos ^ 3) * x.pos.z| ≤ 20 * u * |mu / V3.norm x.pos ^ 3 * x.pos.z| + η := by
  have hu := hU.u_pos
  have hus := hU.u_small
  have hη0 := hU.eta_nonneg
  have hν := hU.nu_pos
  have hB2 : 1 ≤ B ^ 2 := one_le_pow₀ hB
  have hB3 : 1 ≤ B ^ 3 := one_le_pow₀ hB
  have hB4 : 1 ≤ B ^ 4 := one_le_pow₀ hB
  have g2 : B ^ 2 ≤ B ^ 5 := pow_le_pow_right₀ hB (by norm_num)
  have g3 : B ^ 3 ≤ B ^ 5 := pow_le_pow_right₀ hB (by norm_num)
  have g4 : B ^ 4 ≤ B ^ 5 := pow_le_pow_right₀ hB (by norm_num)
  have hΩ := hM.le
  have hp : 0 < V3.norm x.pos := lt_of_lt_of_le (by positivity) h1
  have hdd : V3.dot x.pos x.pos = V3.norm x.pos ^ 2 := by
    have := V3.norm_sq' x.pos
    rw [← this]; simp only [V3.dot]; ring
  have hd2 : V3.dot x.pos x.pos ≤ B ^ 2 := by rw [hdd]; exact pow_le_pow_left₀ hp.le h2 2
  have hd1 : 1 ≤ V3.dot x.pos x.pos * B ^ 2 := by
    rw [hdd, ← mul_pow]
    refine one_le_pow₀ ?_
    rwa [div_le_iff₀ (by linarith)] at h1
  have hdp : 0 < V3.dot x.pos x.pos := by rw [hdd]; positivity
  obtain ⟨n, en, rn, hn⟩ := C83_norm hU (Ω := Ω) x.pos (by linarith) (by linarith)
    (by
      by_contra hc
      push Not at hc
      have : u * V3.dot x.pos x.pos * B ^ 2 < 8 * η * B ^ 2 := mul_lt_mul_of_pos_right hc (by linarith)
      nlinarith)
    (by
      by_contra hc
      push Not at hc
      have h3 : V3.dot x.pos x.pos * B ^ 2 < 8 * ν * B ^ 2 := mul_lt_mul_of_pos_right hc (by linarith)
      have h4 := hM.nu
      have h5 : ν * (256 * B ^ 5) ≤ ν * M := mul_le_mul_of_nonneg_left hR hν.le
      have h6 : ν * B ^ 2 ≤ ν * B ^ 5 := mul_le_mul_of_nonneg_left g2 hν.le
      nlinarith)
  have wn := within_of_four hU hp hn
  have hn' := abs_le.1 hn
  have hup : 4 * u * V3.norm x.pos ≤ V3.norm x.pos / 2 := by nlinarith
  have n0 : 0 < n := by linarith
  have mn : Mz (2 * B) (fin n : Fl F Ω) (⟨n⟩ : Rnd (F.noU ν)) := by
    refine Mz.inp (by rw [abs_of_pos n0]; linarith) (Or.inr ?_) rn
    rw [abs_of_pos n0]
    rw [div_le_iff₀ (by linarith)] at h1
    nlinarith
  have hb : Bases u B (1 / u) := ⟨hB, by rw [mul_one_div_cancel hu.ne']⟩
  have mm := hmu.mz (Ω := Ω) (ν := ν) hb
  have m3 := (mn.mul hU hM mn (by nlinarith)).mul hU hM mn (by nlinarith)
  have w3 := (wn : Within u 5 (⟨n⟩ : Rnd (F.noU ν)).val _).pow3 hU.std
  have mq := (mm.div hU hM m3 (w3.ne_iff.2 (by positivity)) (by nlinarith)).neg hU
  have wq := ((Within.ex (⟨mu⟩ : Rnd (F.noU ν))).div hU.std w3).neg
  set c := (-((⟨mu⟩ : Rnd (F.noU ν)) / (⟨n⟩ : Rnd (F.noU ν)) ^ 3)).val with hc
  have ec : -((fin mu : Fl F Ω) / (fin n) ^ 3) = fin c := mq.eq
  have hcle : |c| ≤ 64 * B ^ 4 := mq.le.trans (le_of_eq (by ring))
  have hb' := wq.bound hU.std (by norm_num) (ku_lt hU.std (by norm_num))
  have hg : gam u (0 + (3 * 5 + 2) + 1) ≤ 18.5 * u := by
    unfold gam
    rw [div_le_iff₀ (by nlinarith)]
    nlinarith
  have hcq : |c - -(mu / V3.norm x.pos ^ 3)| ≤ 18.5 * u * |-(mu / V3.norm x.pos ^ 3)| :=
    hb'.trans (mul_le_mul_of_nonneg_right hg (abs_nonneg _))
  have key : ∀ y : ℝ, |y| ≤ B → ∃ A, (fin c * fin y : Fl F Ω) = fin A ∧
      |A - -(mu / V3.norm x.pos ^ 3) * y| ≤ 20 * u * |mu / V3.norm x.pos ^ 3 * y| + η := by
    intro y hy
    obtain ⟨A, e1, e2⟩ := mul_step hU hcq (y := y) (K := 64 * B ^ 5) (Ω := Ω)
      (by
        rw [abs_mul]
        calc |c| * |y| ≤ 64 * B ^ 4 * B := mul_le_mul hcle hy (abs_nonneg _) (by positivity)
          _ = _ := by ring) (by linarith)
    refine ⟨A, e1, ?_⟩
    rwa [neg_mul, abs_neg, ← neg_mul] at e2
  obtain ⟨cx, cy, cz⟩ := comp_le_norm x.pos
  obtain ⟨Ax, k1, k2⟩ := key _ (cx.trans h2)
  obtain ⟨Ay, k3, k4⟩ := key _ (cy.trans h2)
  obtain ⟨Az, k5, k6⟩ := key _ (cz.trans h2)
  refine ⟨⟨Ax, Ay, Az⟩, ?_, k2, k4, k6⟩
  have e : (finS x : State (Fl F Ω)).pos = finV x.pos := rfl
  simp only [point_mass_grav, Args.get, ha]
  show Except.ok _ = _
  rw [e, en, ec]
  exact congrArg _ (V3.ext k1 k3 k5)

end
end Adx
