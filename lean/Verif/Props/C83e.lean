import Verif.Props.C83d

/-! # C83: zonal accelerations without underflow, and concrete cases -/

namespace Adx
open Spec Fl

section
variable {F : Fp} {u L ν η Ω M B N : ℝ} (hU : UModel F u L ν η) (hM : Rg Ω ν M) (hB : Bases u B N)

/-- The state and the arguments as numbers of the arithmetic without underflow. -/
def rndS (F : Fp) (x : State ℝ) : State (Rnd F) := ⟨rndV F x.pos, x.rest.map Rnd.mk⟩
/-- likewise -/
def rndA (F : Fp) (a : Args ℝ) : Args (Rnd F) := fun k => (a k).map Rnd.mk

theorem rndS_re (x : State ℝ) : (rndS F x).re = x := by
  obtain ⟨p, r⟩ := x
  simp only [rndS, State.re]
  congr 1
  rw [List.map_map]
  exact List.map_id r
theorem rndA_re (a : Args ℝ) : reArgs (rndA F a) = a := by
  funext k
  simp only [reArgs, rndA]
  cases a k <;> rfl
theorem rndA_some {a : Args ℝ} {k : String} {v : ℝ} (h : a k = some v) : rndA F a k = some ⟨v⟩ := by simp [rndA, h]
theorem finA_some {a : Args ℝ} {k : String} {v : ℝ} (h : a k = some v) : (finA a : Args (Fl F Ω)) k = some (fin v) := by
  simp [finA, h]

include hU in
theorem rd_lit (n : ℕ) (hn : n ≤ 1000) : (((n : ℕ) : Rnd (F.noU ν))).val = n := by
  rw [Rnd.val_natCast, hU.std.lit n hn]

section
include hU hM

theorem mz_nat (n : ℕ) (h0 : 1 ≤ n) (hn : n ≤ 1000) (hZ : 1000 ≤ M) : Mz (n : ℝ) ((n : ℕ) : Fl F Ω) ((n : ℕ) : Rnd (F.noU ν)) :=
  Mz.lit hU hM h0 hn (le_trans (by exact_mod_cast hn) hZ)

variable {a : Fl F Ω} {x : Rnd (F.noU ν)} {X : ℝ}
theorem Fl.Mz.pow2 (h : Mz X a x) (hZ : 2 * X ^ 2 ≤ M) : Mz (2 * X ^ 2) (a ^ 2) (x ^ 2) :=
  (h.mul hU hM h (by linarith)).mono (by linarith)

theorem Fl.Mz.pow3 (h : Mz X a x) (hX : 1 ≤ X) (hZ : 4 * X ^ 3 ≤ M) : Mz (4 * X ^ 3) (a ^ 3) (x ^ 3) := by
  have h2 : X ^ 2 ≤ X ^ 3 := pow_le_pow_right₀ hX (by norm_num)
  have h0 : (0 : ℝ) ≤ X ^ 2 := by positivity
  exact ((h.pow2 hU hM (by linarith)).mul hU hM h (by linarith)).mono (by linarith)

theorem Fl.Mz.pow4 (h : Mz X a x) (hX : 1 ≤ X) (hZ : 8 * X ^ 4 ≤ M) : Mz (8 * X ^ 4) (a ^ 4) (x ^ 4) := by
  have h2 : X ^ 3 ≤ X ^ 4 := pow_le_pow_right₀ hX (by norm_num)
  have h0 : (0 : ℝ) ≤ X ^ 3 := by positivity
  exact ((h.pow3 hU hM hX (by linarith)).mul hU hM h (by linarith)).mono (by linarith)

theorem Fl.Mz.pow5 (h : Mz X a x) (hX : 1 ≤ X) (hZ : 16 * X ^ 5 ≤ M) : Mz (16 * X ^ 5) (a ^ 5) (x ^ 5) := by
  have h2 : X ^ 4 ≤ X ^ 5 := pow_le_pow_right₀ hX (by norm_num)
  have h0 : (0 : ℝ) ≤ X ^ 4 := by positivity
  exact ((h.pow4 hU hM hX (by linarith)).mul hU hM h (by linarith)).mono (by linarith)

theorem Fl.Mz.pow7 (h : Mz X a x) (hX : 1 ≤ X) (hZ : 64 * X ^ 7 ≤ M) : Mz (64 * X ^ 7) (a ^ 7) (x ^ 7) := by
  have h2 : X ^ 5 ≤ X ^ 7 := pow_le_pow_right₀ hX (by norm_num)
  have h3 : X ^ 6 ≤ X ^ 7 := pow_le_pow_right₀ hX (by norm_num)
  have h0 : (0 : ℝ) ≤ X ^ 5 := by positivity
  have h6 := ((h.pow5 hU hM hX (by linarith)).mul hU hM h (by linarith))
  exact (h6.mul hU hM h (by linarith)).mono (by linarith)
end

include hU hM hB

/-- C83, J2. -/
theorem C83_j2 {t : ℝ} {x : State ℝ} {a : Args ℝ} {mu J R : ℝ} (ha : a "mu" = some mu) (hJ : a "J2" = some J)
    (hR : a "R_eq" = some R) (i1 : InRange F B mu) (i2 : InRange F B J) (i3 : InRange F B R) (i4 : InRangeV F B x.pos)
    (h0 : 0 < V3.norm x.pos) (hC : 10 ^ 15 * (B ^ 14 * N ^ 1) ≤ M) :
    ∃ A A', j2_acc (fin t : Fl F Ω) (finS x) (finA a) = .ok (finV A) ∧ j2_acc t x a = .ok A' ∧
      ∀ w f, w = (x.pos.z / V3.norm x.pos) ^ 2 → f = 3 / 2 * |mu| * |J| * R ^ 2 / V3.norm x.pos ^ 5 →
        |A.x - A'.x| ≤ gam u 35 * (f * |x.pos.x| * (1 + 5 * w)) ∧ |A.y - A'.y| ≤ gam u 35 * (f * |x.pos.y| * (1 + 5 * w)) ∧
        |A.z - A'.z| ≤ gam u 35 * (f * |x.pos.z| * (3 + 5 * w)) := by
  have hB1 := hB.B
  have h1000 : 1000 ≤ M := by inrange hU hB hC 0 0
  obtain ⟨A, A', e1, e2, b⟩ := C67_j2 hU.std ⟨t⟩ (rndS (F.noU ν) x) (rndA _ a) ⟨mu⟩ ⟨J⟩ ⟨R⟩ (rndA_some ha) (rndA_some hJ)
    (rndA_some hR)
  rw [rndS_re, rndA_re] at e2
  refine ⟨A.re, A', ?_, e2, by rintro w f rfl rfl; exact b⟩
  have m1 := i1.mz (Ω := Ω) (ν := ν) hB
  have m2 := i2.mz (Ω := Ω) (ν := ν) hB
  have m3 := i3.mz (Ω := Ω) (ν := ν) hB
  have mp := i4.mz (Ω := Ω) (ν := ν) hB
  have mr := mp.norm hU hM hB1 (by inrange hU hB hC 2 0)
  have r0 : (V3.norm (rndV (F.noU ν) x.pos)).val ≠ 0 := (within_norm hU.std _).ne_iff.2 h0.ne'
  have r5 : ((V3.norm (rndV (F.noU ν) x.pos)) ^ 5).val ≠ 0 :=
    ((within_norm hU.std _).pow5 hU.std).ne_iff.2 (pow_ne_zero _ h0.ne')
  have c0 := (((mz_nat hU hM 3 (by norm_num) (by norm_num) h1000).div hU hM (mz_nat hU hM 2 (by norm_num) (by norm_num) h1000)
    (by rw [rd_lit hU 2 (by norm_num)]; norm_num) (by norm_num; linarith)).neg hU).mono (Y := 12) (by norm_num)
  have c1 := (c0.mul hU hM m1 (by inrange hU hB hC 1 0)).mul hU hM m2 (by inrange hU hB hC 2 0)
  have c2 := c1.mul hU hM (m3.pow2 hU hM (by inrange hU hB hC 2 0)) (by inrange hU hB hC 4 0)
  have c3 := c2.div hU hM (mr.pow5 hU hM (by linarith) (by inrange hU hB hC 5 0)) r5 (by inrange hU hB hC 9 0)
  have w1 := (mp.z.div hU hM mr r0 (by inrange hU hB hC 2 0)).pow2 hU hM (by inrange hU hB hC 4 0)
  have w2 := ((mz_nat hU hM 5 (by norm_num) (by norm_num) h1000).mul hU hM w1 (by norm_num; inrange hU hB hC 4 0)).mono
    (Y := 11520 * B ^ 4) (by norm_num; linarith)
  have hB4 : 1 ≤ B ^ 4 := one_le_pow₀ hB1
  have d1 := ((mz_nat hU hM 1 (by norm_num) (by norm_num) h1000).mono (Y := 11520 * B ^ 4) (by norm_num; linarith)).subN hU hM hB w2
    (by inrange hU hB hC 4 1)
  have d3 := ((mz_nat hU hM 3 (by norm_num) (by norm_num) h1000).mono (Y := 11520 * B ^ 4) (by norm_num; linarith)).subN hU hM hB w2
    (by inrange hU hB hC 4 1)
  have ax := (c3.mul hU hM mp.x (by inrange hU hB hC 10 0)).mul hU hM d1 (by inrange hU hB hC 14 1)
  have ay := (c3.mul hU hM mp.y (by inrange hU hB hC 10 0)).mul hU hM d1 (by inrange hU hB hC 14 1)
  have az := (c3.mul hU hM mp.z (by inrange hU hB hC 10 0)).mul hU hM d3 (by inrange hU hB hC 14 1)
  simp only [j2_acc, Args.get, rndA_some ha, rndA_some hJ, rndA_some hR] at e1
  obtain rfl := Except.ok.inj e1
  simp only [j2_acc, Args.get, finA_some ha, finA_some hJ, finA_some hR]
  exact congrArg _ (V3.ext ax.eq ay.eq az.eq)

/-- C83, J3. -/
theorem C83_j3 {t : ℝ} {x : State ℝ} {a : Args ℝ} {mu J R : ℝ} (ha : a "mu" = some mu) (hJ : a "J3" = some J)
    (hR : a "R_eq" = some R) (i1 : InRange F B mu) (i2 : InRange F B J) (i3 : InRange F B R) (i4 : InRangeV F B x.pos)
    (h0 : 0 < V3.norm x.pos) (hC : 10 ^ 19 * (B ^ 18 * N ^ 2) ≤ M) :
    ∃ A A', j3_acc (fin t : Fl F Ω) (finS x) (finA a) = .ok (finV A) ∧ j3_acc t x a = .ok A' ∧
      ∀ r z f, r = V3.norm x.pos → z = |x.pos.z| → f = 5 / 2 * |mu| * |J| * |R| ^ 3 / r ^ 7 →
        |A.x - A'.x| ≤ gam u 44 * (f * |x.pos.x| * (3 * z + 7 * (z ^ 3 / r ^ 2))) ∧
        |A.y - A'.y| ≤ gam u 44 * (f * |x.pos.y| * (3 * z + 7 * (z ^ 3 / r ^ 2))) ∧
        |A.z - A'.z| ≤ gam u 45 * (f * (6 * z ^ 2 + 7 * (z ^ 3 / r ^ 2) * z + 3 / 5 * r ^ 2)) := by
  have hB1 := hB.B
  have h1000 : 1000 ≤ M := by inrange hU hB hC 0 0
  obtain ⟨A, A', e1, e2, b⟩ := C67_j3 hU.std ⟨t⟩ (rndS (F.noU ν) x) (rndA _ a) ⟨mu⟩ ⟨J⟩ ⟨R⟩ (rndA_some ha) (rndA_some hJ)
    (rndA_some hR)
  rw [rndS_re, rndA_re] at e2
  refine ⟨A.re, A', ?_, e2, by rintro r z f rfl rfl rfl; exact b⟩
  have m1 := i1.mz (Ω := Ω) (ν := ν) hB
  have m2 := i2.mz (Ω := Ω) (ν := ν) hB
  have m3 := i3.mz (Ω := Ω) (ν := ν) hB
  have mp := i4.mz (Ω := Ω) (ν := ν) hB
  have mr := mp.norm hU hM hB1 (by inrange hU hB hC 2 0)
  have wn := within_norm hU.std (rndV (F.noU ν) x.pos)
  have r2 : ((V3.norm (rndV (F.noU ν) x.pos)) ^ 2).val ≠ 0 := (wn.sq hU.std).ne_iff.2 (pow_ne_zero _ h0.ne')
  have r7 : ((V3.norm (rndV (F.noU ν) x.pos)) ^ 7).val ≠ 0 := (wn.pow7 hU.std).ne_iff.2 (pow_ne_zero _ h0.ne')
  have c0 := (((mz_nat hU hM 5 (by norm_num) (by norm_num) h1000).div hU hM (mz_nat hU hM 2 (by norm_num) (by norm_num) h1000)
    (by rw [rd_lit hU 2 (by norm_num)]; norm_num) (by norm_num; linarith)).neg hU).mono (Y := 20) (by norm_num)
  have c1 := (c0.mul hU hM m1 (by inrange hU hB hC 1 0)).mul hU hM m2 (by inrange hU hB hC 2 0)
  have c2 := c1.mul hU hM (m3.pow3 hU hM hB1 (by inrange hU hB hC 3 0)) (by inrange hU hB hC 5 0)
  have c3 := c2.div hU hM (mr.pow7 hU hM (by linarith) (by inrange hU hB hC 7 0)) r7 (by inrange hU hB hC 12 0)
  have mr2 := mr.pow2 hU hM (by inrange hU hB hC 2 0)
  have z3 := (mp.z.pow3 hU hM hB1 (by inrange hU hB hC 3 0)).div hU hM mr2 r2 (by inrange hU hB hC 5 0)
  have w2 := ((mz_nat hU hM 7 (by norm_num) (by norm_num) h1000).mul hU hM z3 (by norm_num; inrange hU hB hC 5 0)).mono
    (Y := 32256 * B ^ 5) (by norm_num; linarith)
  have hB15 : B ≤ B ^ 5 := by
    calc B = B ^ 1 := (pow_one B).symm
      _ ≤ B ^ 5 := pow_le_pow_right₀ hB1 (by norm_num)
  have hB20 : 1 ≤ B ^ 2 := one_le_pow₀ hB1
  have hB26 : B ^ 2 ≤ B ^ 6 := pow_le_pow_right₀ hB1 (by norm_num)
  have hN := hB.one_le_N hU
  have hB6N : B ^ 6 ≤ B ^ 6 * N := le_mul_of_one_le_right (by positivity) hN
  have d1 := (((mz_nat hU hM 3 (by norm_num) (by norm_num) h1000).mul hU hM mp.z (by norm_num; inrange hU hB hC 1 0)).mono
    (Y := 32256 * B ^ 5) (by norm_num; linarith)).subN hU hM hB w2 (by inrange hU hB hC 5 1)
  have ax := (c3.mul hU hM mp.x (by inrange hU hB hC 13 0)).mul hU hM d1 (by inrange hU hB hC 18 1)
  have ay := (c3.mul hU hM mp.y (by inrange hU hB hC 13 0)).mul hU hM d1 (by inrange hU hB hC 18 1)
  have z1 := ((mz_nat hU hM 6 (by norm_num) (by norm_num) h1000).mul hU hM (mp.z.pow2 hU hM (by inrange hU hB hC 2 0))
    (by norm_num; inrange hU hB hC 2 0)).mono (Y := 64512 * B ^ 6) (by norm_num; linarith)
  have z2 := (w2.mul hU hM mp.z (by inrange hU hB hC 6 0)).mono (Y := 64512 * B ^ 6) (by linarith)
  have k1 := ((mz_nat hU hM 3 (by norm_num) (by norm_num) h1000).div hU hM (mz_nat hU hM 5 (by norm_num) (by norm_num) h1000)
    (by rw [rd_lit hU 5 (by norm_num)]; norm_num) (by norm_num; linarith)).mono (Y := 30) (by norm_num)
  have k2 := (k1.mul hU hM mr2 (by inrange hU hB hC 2 0)).mono (Y := 129024 * (B ^ 6 * N)) (by linarith)
  have d2 := (z1.subN hU hM hB z2 (by inrange hU hB hC 6 1)).mono (Y := 129024 * (B ^ 6 * N)) (by linarith)
  have d3 := d2.subN hU hM hB k2 (by inrange hU hB hC 6 2)
  have az := c3.mul hU hM d3 (by inrange hU hB hC 18 2)
  simp only [j3_acc, Args.get, rndA_some ha, rndA_some hJ, rndA_some hR] at e1
  obtain rfl := Except.ok.inj e1
  simp only [j3_acc, Args.get, finA_some ha, finA_some hJ, finA_some hR]
  exact congrArg _ (V3.ext ax.eq ay.eq az.eq)

/-- C83, J4. -/
theorem C83_j4 {t : ℝ} {x : State ℝ} {a : Args ℝ} {mu J R : ℝ} (ha : a "mu" = some mu) (hJ : a "J4" = some J)
    (hR : a "R_eq" = some R) (i1 : InRange F B mu) (i2 : InRange F B J) (i3 : InRange F B R) (i4 : InRangeV F B x.pos)
    (h0 : 0 < V3.norm x.pos) (hC : 10 ^ 24 * (B ^ 22 * N ^ 2) ≤ M) :
    ∃ A A', j4_acc (fin t : Fl F Ω) (finS x) (finA a) = .ok (finV A) ∧ j4_acc t x a = .ok A' ∧
      ∀ w f, w = (x.pos.z / V3.norm x.pos) ^ 2 → f = 15 / 8 * |mu| * |J| * R ^ 4 / V3.norm x.pos ^ 7 →
        |A.x - A'.x| ≤ gam u 53 * (f * |x.pos.x| * (1 + 14 * w + 21 * w ^ 2)) ∧
        |A.y - A'.y| ≤ gam u 53 * (f * |x.pos.y| * (1 + 14 * w + 21 * w ^ 2)) ∧
        |A.z - A'.z| ≤ gam u 53 * (f * |x.pos.z| * (5 + 70 * w / 3 + 21 * w ^ 2)) := by
  have hB1 := hB.B
  have h1000 : 1000 ≤ M := by inrange hU hB hC 0 0
  obtain ⟨A, A', e1, e2, b⟩ := C67_j4 hU.std ⟨t⟩ (rndS (F.noU ν) x) (rndA _ a) ⟨mu⟩ ⟨J⟩ ⟨R⟩ (rndA_some ha) (rndA_some hJ)
    (rndA_some hR)
  rw [rndS_re, rndA_re] at e2
  refine ⟨A.re, A', ?_, e2, by rintro w f rfl rfl; exact b⟩
  have m1 := i1.mz (Ω := Ω) (ν := ν) hB
  have m2 := i2.mz (Ω := Ω) (ν := ν) hB
  have m3 := i3.mz (Ω := Ω) (ν := ν) hB
  have mp := i4.mz (Ω := Ω) (ν := ν) hB
  have mr := mp.norm hU hM hB1 (by inrange hU hB hC 2 0)
  have wn := within_norm hU.std (rndV (F.noU ν) x.pos)
  have r0 : (V3.norm (rndV (F.noU ν) x.pos)).val ≠ 0 := wn.ne_iff.2 h0.ne'
  have r7 : ((V3.norm (rndV (F.noU ν) x.pos)) ^ 7).val ≠ 0 := (wn.pow7 hU.std).ne_iff.2 (pow_ne_zero _ h0.ne')
  have c0 := ((mz_nat hU hM 15 (by norm_num) (by norm_num) h1000).div hU hM (mz_nat hU hM 8 (by norm_num) (by norm_num) h1000)
    (by rw [rd_lit hU 8 (by norm_num)]; norm_num) (by norm_num; linarith)).mono (Y := 240) (by norm_num)
  have c1 := (c0.mul hU hM m1 (by inrange hU hB hC 1 0)).mul hU hM m2 (by inrange hU hB hC 2 0)
  have c2 := c1.mul hU hM (m3.pow4 hU hM hB1 (by inrange hU hB hC 4 0)) (by inrange hU hB hC 6 0)
  have c3 := c2.div hU hM (mr.pow7 hU hM (by linarith) (by inrange hU hB hC 7 0)) r7 (by inrange hU hB hC 13 0)
  have w1 := ((mp.z.div hU hM mr r0 (by inrange hU hB hC 2 0)).pow2 hU hM (by inrange hU hB hC 4 0)).mono
    (Y := 1152 * B ^ 4) (by linarith)
  have hN := hB.one_le_N hU
  have hB4 : 1 ≤ B ^ 4 := one_le_pow₀ hB1
  have hB48 : B ^ 4 ≤ B ^ 8 := pow_le_pow_right₀ hB1 (by norm_num)
  have hB8N : B ^ 4 * N ≤ B ^ 8 * N := mul_le_mul_of_nonneg_right hB48 (by linarith)
  have hB8N' : B ^ 8 ≤ B ^ 8 * N := le_mul_of_one_le_right (by positivity) hN
  have w14 := ((mz_nat hU hM 14 (by norm_num) (by norm_num) h1000).mul hU hM w1 (by norm_num; inrange hU hB hC 4 0)).mono
    (Y := 967680 * B ^ 4) (by norm_num; linarith)
  have w70 := (((mz_nat hU hM 70 (by norm_num) (by norm_num) h1000).mul hU hM w1 (by norm_num; inrange hU hB hC 4 0)).div hU hM
    (mz_nat hU hM 3 (by norm_num) (by norm_num) h1000) (by rw [rd_lit hU 3 (by norm_num)]; norm_num)
    (by norm_num; inrange hU hB hC 4 0)).mono (Y := 967680 * B ^ 4) (by norm_num; linarith)
  have w21 := ((mz_nat hU hM 21 (by norm_num) (by norm_num) h1000).mul hU hM (w1.pow2 hU hM (by inrange hU hB hC 8 0))
    (by norm_num; inrange hU hB hC 8 0)).mono (Y := 111476736 * (B ^ 8 * N)) (by norm_num; linarith)
  have d1 := ((((mz_nat hU hM 1 (by norm_num) (by norm_num) h1000).mono (Y := 967680 * B ^ 4) (by norm_num; linarith)).subN hU hM hB
    w14 (by inrange hU hB hC 4 1)).mono (Y := 111476736 * (B ^ 8 * N)) (by linarith)).addN hU hM hB w21 (by inrange hU hB hC 8 2)
  have d5 := ((((mz_nat hU hM 5 (by norm_num) (by norm_num) h1000).mono (Y := 967680 * B ^ 4) (by norm_num; linarith)).subN hU hM hB
    w70 (by inrange hU hB hC 4 1)).mono (Y := 111476736 * (B ^ 8 * N)) (by linarith)).addN hU hM hB w21 (by inrange hU hB hC 8 2)
  have ax := (c3.mul hU hM mp.x (by inrange hU hB hC 14 0)).mul hU hM d1 (by inrange hU hB hC 22 2)
  have ay := (c3.mul hU hM mp.y (by inrange hU hB hC 14 0)).mul hU hM d1 (by inrange hU hB hC 22 2)
  have az := (c3.mul hU hM mp.z (by inrange hU hB hC 14 0)).mul hU hM d5 (by inrange hU hB hC 22 2)
  simp only [j4_acc, Args.get, rndA_some ha, rndA_some hJ, rndA_some hR] at e1
  obtain rfl := Except.ok.inj e1
  simp only [j4_acc, Args.get, finA_some ha, finA_some hJ, finA_some hR]
  exact congrArg _ (V3.ext ax.eq ay.eq az.eq)

end
end Adx
