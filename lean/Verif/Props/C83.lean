import Verif.Lemmas.UnderTransfer
import Verif.Props.C67c

/-! # C83: underflow

The formulas in floating-point arithmetic with underflow (gradual or flushed to zero) and overflow. For inputs that are zero
or of magnitude between `1/B` and `B` nothing underflows or overflows, and the error bounds of C67 hold. `N` is any number
with `u N ≥ 1`; it enters where a difference may cancel down to one unit in the last place. -/

namespace Adx
open Spec Fl

/-- A number of the format, zero or of magnitude in `[1/B, B]`. -/
def InRange (F : Fp) (B r : ℝ) : Prop := F.rd r = r ∧ |r| ≤ B ∧ (r = 0 ∨ 1 / B ≤ |r|)

/-- `1/B` and `B` bound the inputs, `N` is at least `1/u`. -/
structure Bases (u B N : ℝ) : Prop where
  B : 1 ≤ B
  N : 1 ≤ u * N

section
variable {F : Fp} {u L ν η Ω M B N : ℝ} (hU : UModel F u L ν η) (hM : Rg Ω ν M) (hB : Bases u B N)

include hB in
theorem InRange.mz {r : ℝ} (h : InRange F B r) : Mz B (fin r : Fl F Ω) (⟨r⟩ : Rnd (F.noU ν)) := by
  obtain ⟨h1, h2, h3⟩ := h
  refine Mz.inp h2 (h3.imp_right fun h4 => ?_) h1
  rw [div_le_iff₀ (by linarith [hB.B])] at h4
  linarith

include hU hB in
theorem Bases.one_le_N : 1 ≤ N := by
  have h1 := hB.N
  have h2 := hU.u_pos
  have h3 := hU.u_small
  by_contra hc
  push Not at hc
  nlinarith

include hU hB in
/-- Products of few factors `B` and `N` are in range when one with more factors is. -/
theorem powM {C : ℝ} {k n j m : ℕ} (h : C * (B ^ n * N ^ m) ≤ M) (hC : 0 ≤ C) (hk : k ≤ n) (hj : j ≤ m) :
    C * (B ^ k * N ^ j) ≤ M ∧ 1 ≤ B ^ k * N ^ j := by
  have hN := hB.one_le_N hU
  refine ⟨le_trans ?_ h, one_le_mul_of_one_le_of_one_le (one_le_pow₀ hB.B) (one_le_pow₀ hN)⟩
  refine mul_le_mul_of_nonneg_left (mul_le_mul (pow_le_pow_right₀ hB.B hk) (pow_le_pow_right₀ hN hj) (by positivity) ?_) hC
  have := hB.B
  positivity

/-- Ranges of products from that of the largest one. -/
macro "inrange " hU:term:max hB:term:max h:term:max k:num j:num : tactic =>
  `(tactic| (obtain ⟨h1, h2⟩ := powM (k := $k) (j := $j) $hU $hB $h (by norm_num) (by norm_num) (by norm_num); linarith))

section
include hU hM hB
variable {a b : Fl F Ω} {x y : Rnd (F.noU ν)} {X Y : ℝ}

/-- Differences, in terms of `N`. -/
theorem Fl.Mz.subN (h : Mz X a x) (h' : Mz X b y) (hZ : 2 * (X * N) ≤ M) : Mz (2 * (X * N)) (a - b) (x - y) := by
  have hu := hU.u_pos
  have h1 : X / u ≤ X * N := by
    rw [div_le_iff₀ hu]
    have := hB.N
    nlinarith [h.nonneg]
  exact (h.sub hU hM h' (by linarith)).mono (by linarith)

/-- Sums, in terms of `N`. -/
theorem Fl.Mz.addN (h : Mz X a x) (h' : Mz X b y) (hZ : 2 * (X * N) ≤ M) : Mz (2 * (X * N)) (a + b) (x + y) := by
  have hu := hU.u_pos
  have h1 : X / u ≤ X * N := by
    rw [div_le_iff₀ hu]
    have := hB.N
    nlinarith [h.nonneg]
  exact (h.add hU hM h' (by linarith)).mono (by linarith)
end

include hU hM

theorem mz_two (h : 8 ≤ M) : Mz 2 ((2 : ℕ) : Fl F Ω) ((2 : ℕ) : Rnd (F.noU ν)) := by
  have := Mz.lit (n := 2) hU hM (by norm_num) (by norm_num) (by norm_num; linarith)
  norm_num at this ⊢; exact this

theorem mz_one (h : 8 ≤ M) : Mz 1 ((1 : ℕ) : Fl F Ω) ((1 : ℕ) : Rnd (F.noU ν)) := by
  have := Mz.lit (n := 1) hU hM (by norm_num) (by norm_num) (by norm_num; linarith)
  norm_num at this ⊢; exact this

theorem mz_four (h : 8 ≤ M) : Mz 4 ((4 : ℕ) : Fl F Ω) ((4 : ℕ) : Rnd (F.noU ν)) := by
  have := Mz.lit (n := 4) hU hM (by norm_num) (by norm_num) (by norm_num; linarith)
  norm_num at this ⊢; exact this

include hB

/-- C83, period. -/
theorem C83_orb_period {a mu : ℝ} (ha : InRange F B a) (hmu : InRange F B mu) (ha0 : 0 < a) (hmu0 : 0 < mu)
    (hR : 1024 * (B ^ 4 * N ^ 0) ≤ M) : ∃ P, orb_period (fin a : Fl F Ω) (fin mu) = fin P ∧
      |P - orb_period a mu| ≤ gam u (11 / 2) * |orb_period a mu| := by
  have h8 : 8 ≤ M := by inrange hU hB hR 0 0
  have m1 := ha.mz (Ω := Ω) (ν := ν) hB
  have m2 := hmu.mz (Ω := Ω) (ν := ν) hB
  have c2 := (m1.mul hU hM m1 (by inrange hU hB hR 2 0)).mul hU hM m1 (by inrange hU hB hR 3 0)
  have c3 := c2.div hU hM m2 hmu0.ne' (by inrange hU hB hR 4 0)
  have c4 := c3.sqrt hU hM ?_ (by inrange hU hB hR 4 0) (by inrange hU hB hR 4 0)
  have c5 := ((mz_two hU hM h8).mul hU hM (Mz.pi hU hM h8) (by inrange hU hB hR 0 0)).mul hU hM c4 (by inrange hU hB hR 4 0)
  · exact ⟨_, c5.eq, C67_orb_period hU.std ⟨a⟩ ⟨mu⟩⟩
  · have := (((Within.ex (⟨a⟩ : Rnd (F.noU ν))).pow3 hU.std).div hU.std (.ex (⟨mu⟩ : Rnd (F.noU ν)))).pos_iff
    exact (this.2 (by positivity)).le

/-- C83, semimajor axis from the period. -/
theorem C83_a_from_period {P mu : ℝ} (hP : InRange F B P) (hmu : InRange F B mu) (hP0 : P ≠ 0) (hmu0 : mu ≠ 0)
    (hR : 16384 * (B ^ 3 * N ^ 0) ≤ M) : ∃ a, a_from_period (fin P : Fl F Ω) (fin mu) = fin a ∧
      |a - a_from_period P mu| ≤ gam u (L + 7 / 3) * |a_from_period P mu| := by
  have h8 : 8 ≤ M := by inrange hU hB hR 0 0
  have m1 := hP.mz (Ω := Ω) (ν := ν) hB
  have m2 := hmu.mz (Ω := Ω) (ν := ν) hB
  have mp := Mz.pi hU hM h8
  have c2 := ((m1.mul hU hM m1 (by inrange hU hB hR 2 0)).mul hU hM m2 (by inrange hU hB hR 3 0)).div hU hM
    (mz_four hU hM h8) (by rw [Rnd.val_natCast, hU.std.lit 4 (by norm_num)]; norm_num) (by inrange hU hB hR 3 0)
  have wp := (Within.pi hU.std).sq hU.std
  have c3 := c2.div hU hM (mp.mul hU hM mp (by inrange hU hB hR 0 0)) (wp.ne_iff.2 (by positivity)) (by inrange hU hB hR 3 0)
  have c4 := c3.cbrt hU hM ?_ (by inrange hU hB hR 3 0) (by inrange hU hB hR 3 0)
  · exact ⟨_, c4.eq, C67_a_from_period hU.std ⟨P⟩ ⟨mu⟩⟩
  · have := (((((Within.ex (⟨P⟩ : Rnd (F.noU ν))).sq hU.std).mul hU.std (.ex ⟨mu⟩)).div hU.std
      (.lit hU.std 4 (by norm_num))).div hU.std wp).ne_iff
    exact this.2 (by have := Real.pi_pos; positivity)

/-- C83, semiparameter. -/
theorem C83_semiparameter {h mu : ℝ} (hh : InRange F B h) (hmu : InRange F B mu) (hmu0 : mu ≠ 0)
    (hR : 4 * (B ^ 3 * N ^ 0) ≤ M) : ∃ p, semiparameter (fin h : Fl F Ω) (fin mu) = fin p ∧
      |p - semiparameter h mu| ≤ gam u 2 * |semiparameter h mu| := by
  have m1 := hh.mz (Ω := Ω) (ν := ν) hB
  have c := (m1.mul hU hM m1 (by inrange hU hB hR 2 0)).div hU hM (hmu.mz hB) hmu0 (by inrange hU hB hR 3 0)
  exact ⟨_, c.eq, C67_semiparameter hU.std ⟨h⟩ ⟨mu⟩⟩

/-- C83, mean motion. -/
theorem C83_mean_motion {P : ℝ} (hP : InRange F B P) (hP0 : P ≠ 0) (hR : 64 * (B ^ 1 * N ^ 0) ≤ M) :
    ∃ n, mean_motion (fin P : Fl F Ω) = fin n ∧ |n - mean_motion P| ≤ gam u 3 * |mean_motion P| := by
  have h8 : 8 ≤ M := by inrange hU hB hR 0 0
  have c := ((mz_two hU hM h8).mul hU hM (Mz.pi hU hM h8) (by inrange hU hB hR 0 0)).div hU hM (hP.mz hB) hP0
    (by inrange hU hB hR 1 0)
  exact ⟨_, c.eq, C67_mean_motion hU.std ⟨P⟩⟩

/-- C83, apsidal radii (`e ≠ 1` for the apoapsis). -/
theorem C83_radii {p e : ℝ} (hp : InRange F B p) (he : InRange F B e) (he0 : 0 ≤ e) (hR : 8 * (B ^ 2 * N ^ 1) ≤ M) :
    (∃ r, radius_periapsis (fin p : Fl F Ω) (fin e) = fin r ∧ |r - radius_periapsis p e| ≤ gam u 2 * |radius_periapsis p e|) ∧
    (e ≠ 1 → ∃ r, radius_apoapsis (fin p : Fl F Ω) (fin e) = fin r ∧
      |r - radius_apoapsis p e| ≤ gam u 2 * |radius_apoapsis p e|) := by
  have h8 : 8 ≤ M := by inrange hU hB hR 0 0
  have m1 := hp.mz (Ω := Ω) (ν := ν) hB
  have m2 := he.mz (Ω := Ω) (ν := ν) hB
  have mo := (mz_one hU hM h8).mono hB.B
  have e1 : (((1 : ℕ) : Rnd (F.noU ν))).val = 1 := by rw [Rnd.val_natCast, hU.std.lit 1 (by norm_num)]; norm_num
  have c1 := mo.add_nonneg hU hM m2 (by rw [e1]; norm_num) he0 (by inrange hU hB hR 1 0)
  have c2 := mo.subN hU hM hB m2 (by inrange hU hB hR 1 1)
  have hr := C67_radii hU.std (⟨p⟩ : Rnd (F.noU ν)) ⟨e⟩
  refine ⟨⟨_, (m1.div hU hM c1 ?_ (by inrange hU hB hR 2 0)).eq, hr.1⟩, fun h1 =>
    ⟨_, (m1.div hU hM c2 ?_ (by inrange hU hB hR 2 1)).eq, hr.2⟩⟩
  · refine (Within.add_exact hU.std ((1 : ℕ) : Rnd (F.noU ν)) ⟨e⟩).ne_iff.2 ?_
    rw [e1]; show (1 : ℝ) + e ≠ 0; linarith
  · refine (Within.sub_exact hU.std ((1 : ℕ) : Rnd (F.noU ν)) ⟨e⟩).ne_iff.2 ?_
    rw [e1]; exact sub_ne_zero.2 (Ne.symm h1)

/-- C83, `a (1 - e²)` and `p / (1 - e²)`. -/
theorem C83_ae_pe {a e c : ℝ} (ha : InRange F B a) (he : InRange F B e) (h1 : e ^ 2 ≠ 1)
    (hc : 1 + e ^ 2 ≤ c * |1 - e ^ 2|) (hs : 10 * c * u ≤ 1) (hR : 8 * (B ^ 3 * N ^ 1) ≤ M) :
    (∃ p, semipara_from_ae (fin a : Fl F Ω) (fin e) = fin p ∧
      |p - semipara_from_ae a e| ≤ gam u (4 * c + 1) * |semipara_from_ae a e|) ∧
    (∃ r, a_from_pe (fin a : Fl F Ω) (fin e) = fin r ∧ |r - a_from_pe a e| ≤ gam u (4 * c + 1) * |a_from_pe a e|) := by
  have h8 : 8 ≤ M := by inrange hU hB hR 0 0
  have m1 := ha.mz (Ω := Ω) (ν := ν) hB
  have m2 := he.mz (Ω := Ω) (ν := ν) hB
  have hB1 := hB.B
  have mo := (mz_one hU hM h8).mono (Y := 2 * (B * B)) (by nlinarith)
  have c1 := mo.subN hU hM hB (m2.mul hU hM m2 (by inrange hU hB hR 2 0)) (by inrange hU hB hR 2 1)
  have hne : 1 - e ^ 2 ≠ 0 := sub_ne_zero.2 (Ne.symm h1)
  have hw := (near_one_sub_sq hU.std (⟨e⟩ : Rnd (F.noU ν))).within hU.std (by norm_num) hne hc (by linarith)
  have hr := C67_ae_pe hU.std (⟨a⟩ : Rnd (F.noU ν)) ⟨e⟩ h1 hc hs
  exact ⟨⟨_, (m1.mul hU hM c1 (by inrange hU hB hR 3 1)).eq, hr.1⟩,
    ⟨_, (m1.div hU hM c1 (hw.ne_iff.2 hne) (by inrange hU hB hR 3 1)).eq, hr.2⟩⟩

/-- C83, semimajor axis. -/
theorem C83_semimajor_axis {r v mu c : ℝ} (hr : InRange F B r) (hv : InRange F B v) (hmu : InRange F B mu) (hr0 : r ≠ 0)
    (hmu0 : mu ≠ 0) (h0 : 2 / r - v ^ 2 / mu ≠ 0) (hc : 2 / |r| + v ^ 2 / |mu| ≤ c * |2 / r - v ^ 2 / mu|)
    (hs : 15 * c * u ≤ 1) (hR : 16 * (B ^ 3 * N ^ 1) ≤ M) :
    ∃ a, semimajor_axis (fin r : Fl F Ω) (fin v) (fin mu) = fin a ∧
      |a - semimajor_axis r v mu| ≤ gam u (6 * c + 1) * |semimajor_axis r v mu| := by
  have h8 : 8 ≤ M := by inrange hU hB hR 0 0
  have hB1 := hB.B
  have m1 := hr.mz (Ω := Ω) (ν := ν) hB
  have m2 := hv.mz (Ω := Ω) (ν := ν) hB
  have m3 := hmu.mz (Ω := Ω) (ν := ν) hB
  have c1 := ((mz_two hU hM h8).div hU hM m1 hr0 (by inrange hU hB hR 1 0)).mono (Y := 2 * (2 * (B * B) * B)) (by nlinarith)
  have c2 := (m2.mul hU hM m2 (by inrange hU hB hR 2 0)).div hU hM m3 hmu0 (by inrange hU hB hR 3 0)
  have c3 := c1.subN hU hM hB c2 (by inrange hU hB hR 3 1)
  have hw := (near_recip_a hU.std (⟨r⟩ : Rnd (F.noU ν)) ⟨v⟩ ⟨mu⟩).within hU.std (by norm_num) h0 hc (by linarith)
  exact ⟨_, ((mz_one hU hM h8).div hU hM c3 (hw.ne_iff.2 h0) (by inrange hU hB hR 3 1)).eq,
    C67_semimajor_axis hU.std (⟨r⟩ : Rnd (F.noU ν)) ⟨v⟩ ⟨mu⟩ h0 hc hs⟩

/-- C83, mean anomalies. -/
theorem C83_mean_anomaly {a t mu : ℝ} (ha : InRange F B a) (ht : InRange F B t) (hmu : InRange F B mu) (hmu0 : 0 < mu)
    (hR : 32 * (B ^ 5 * N ^ 0) ≤ M) :
    (0 < a → ∃ m, mean_anomaly_elps (fin a : Fl F Ω) (fin t) (fin mu) = fin m ∧
      |m - mean_anomaly_elps a t mu| ≤ gam u (7 / 2) * |mean_anomaly_elps a t mu|) ∧
    (a < 0 → ∃ m, mean_anomaly_hypb (fin a : Fl F Ω) (fin t) (fin mu) = fin m ∧
      |m - mean_anomaly_hypb a t mu| ≤ gam u (7 / 2) * |mean_anomaly_hypb a t mu|) := by
  have m1 := ha.mz (Ω := Ω) (ν := ν) hB
  have m2 := ht.mz (Ω := Ω) (ν := ν) hB
  have m3 := hmu.mz (Ω := Ω) (ν := ν) hB
  have c2 := (m1.mul hU hM m1 (by inrange hU hB hR 2 0)).mul hU hM m1 (by inrange hU hB hR 3 0)
  have w3 := (Within.ex (⟨a⟩ : Rnd (F.noU ν))).pow3 hU.std
  have hr := C67_mean_anomaly hU.std (⟨a⟩ : Rnd (F.noU ν)) ⟨t⟩ ⟨mu⟩
  refine ⟨fun h => ?_, fun h => ?_⟩
  · have w4 := (Within.ex (⟨mu⟩ : Rnd (F.noU ν))).div hU.std w3
    have c3 := m3.div hU hM c2 (w3.ne_iff.2 (by positivity)) (by inrange hU hB hR 4 0)
    have c4 := c3.sqrt hU hM (w4.pos_iff.2 (by positivity)).le (by inrange hU hB hR 4 0) (by inrange hU hB hR 4 0)
    exact ⟨_, (c4.mul hU hM m2 (by inrange hU hB hR 5 0)).eq, hr.1⟩
  · have h3 : 0 < -a ^ 3 := by
      have : 0 < (-a) ^ 3 := pow_pos (by linarith) 3
      linarith [show (-a) ^ 3 = -a ^ 3 by ring]
    have w4 := (Within.ex (⟨mu⟩ : Rnd (F.noU ν))).div hU.std w3.neg
    have c3 := m3.div hU hM (c2.neg hU) (w3.neg.ne_iff.2 h3.ne') (by inrange hU hB hR 4 0)
    have c4 := c3.sqrt hU hM (w4.pos_iff.2 (by positivity)).le (by inrange hU hB hR 4 0) (by inrange hU hB hR 4 0)
    exact ⟨_, (c4.mul hU hM m2 (by inrange hU hB hR 5 0)).eq, hr.2⟩

end
end Adx
