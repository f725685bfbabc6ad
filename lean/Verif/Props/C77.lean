import Verif.Lemmas.Mono
import Verif.Lemmas.FlTransfer
import Verif.Model.OrbElements
import Verif.Model.KepEqu
import Verif.Model.PathCheck
import Verif.Model.Gravity
import Mathlib.Analysis.Real.Pi.Bounds

/-! # C77: what rounding to nearest keeps exactly

Rounding to nearest is monotone, odd and exact on its own numbers. So orderings, signs and ranges that follow from monotone formulas
hold in binary floating point without any error term. In `Rnd (FB p)`: `p` binary digits, unbounded exponent, correctly rounded
functions.
Divisions by zero and roots of negative numbers are those of `ℝ` here; the theorems are meant for arguments in the domain. -/

namespace Adx
open Rnd

section
variable {p : ℕ}

/-- A number of the format. -/
def Rep (x : Rnd (FB p)) : Prop := rdB p x.val = x.val

theorem rdB_one (hp : 2 ≤ p) : rdB p 1 = 1 := by
  have := rdB_nat p 1 (lt_of_lt_of_le (by norm_num) (Nat.pow_le_pow_right (by norm_num) hp : 2 ^ 2 ≤ 2 ^ p))
  exact_mod_cast this

theorem rdB_two (hp : 2 ≤ p) : rdB p 2 = 2 := by
  have := rdB_nat p 2 (lt_of_lt_of_le (by norm_num) (Nat.pow_le_pow_right (by norm_num) hp : 2 ^ 2 ≤ 2 ^ p))
  exact_mod_cast this

theorem val_one (hp : 2 ≤ p) : ((1 : ℕ) : Rnd (FB p)).val = 1 := by
  show rdB p ((1 : ℕ) : ℝ) = 1
  rw [Nat.cast_one]; exact rdB_one hp
theorem val_two (hp : 2 ≤ p) : ((2 : ℕ) : Rnd (FB p)).val = 2 := by
  show rdB p ((2 : ℕ) : ℝ) = 2
  rw [Nat.cast_ofNat]; exact rdB_two hp
theorem val_zero : ((0 : ℕ) : Rnd (FB p)).val = 0 := by
  show rdB p ((0 : ℕ) : ℝ) = 0
  rw [Nat.cast_zero]; exact rdB_zero p

/-- Results of rounded operations are numbers of the format. -/
theorem rep_sub (hp : 2 ≤ p) (x y : Rnd (FB p)) : Rep (x - y) := rdB_rdB (by omega) _

/-! ### Norms and the argument of `arccos` -/

theorem norm_val (a : V3 (Rnd (FB p))) : (V3.norm a).val = rdB p (Real.sqrt (rdB p (rdB p (rdB p (a.x.val * a.x.val)
    + rdB p (a.y.val * a.y.val)) + rdB p (a.z.val * a.z.val)))) := rfl

theorem C77_norm_nonneg (a : V3 (Rnd (FB p))) : 0 ≤ (V3.norm a).val := rdB_nonneg p (Real.sqrt_nonneg _)

/-- A computed norm is at least the magnitude of each component. -/
theorem C77_norm_ge (hp : 2 ≤ p) (a : V3 (Rnd (FB p))) : (Rep a.x → |a.x.val| ≤ (V3.norm a).val) ∧
    (Rep a.y → |a.y.val| ≤ (V3.norm a).val) ∧ (Rep a.z → |a.z.val| ≤ (V3.norm a).val) := by
  have hm := rdB_mono (p := p) (by omega)
  have hi := rdB_rdB (p := p) (by omega)
  have n1 := rdB_nonneg p (mul_self_nonneg a.x.val)
  have n2 := rdB_nonneg p (mul_self_nonneg a.y.val)
  have n3 := rdB_nonneg p (mul_self_nonneg a.z.val)
  have hxy : rdB p (a.x.val * a.x.val) ≤ rdB p (rdB p (a.x.val * a.x.val) + rdB p (a.y.val * a.y.val)) := by
    have := hm (show rdB p (a.x.val * a.x.val) ≤ rdB p (a.x.val * a.x.val) + rdB p (a.y.val * a.y.val) by linarith)
    rwa [hi] at this
  have hyx : rdB p (a.y.val * a.y.val) ≤ rdB p (rdB p (a.x.val * a.x.val) + rdB p (a.y.val * a.y.val)) := by
    have := hm (show rdB p (a.y.val * a.y.val) ≤ rdB p (a.x.val * a.x.val) + rdB p (a.y.val * a.y.val) by linarith)
    rwa [hi] at this
  set s := rdB p (rdB p (a.x.val * a.x.val) + rdB p (a.y.val * a.y.val)) with hs
  have hss : rdB p s = s := hi _
  have h1 : s ≤ rdB p (s + rdB p (a.z.val * a.z.val)) := by
    have := hm (show s ≤ s + rdB p (a.z.val * a.z.val) by linarith)
    rwa [hss] at this
  have h2 : rdB p (a.z.val * a.z.val) ≤ rdB p (s + rdB p (a.z.val * a.z.val)) := by
    have := hm (show rdB p (a.z.val * a.z.val) ≤ s + rdB p (a.z.val * a.z.val) by linarith)
    rwa [hi] at this
  rw [norm_val, ← hs]
  refine ⟨fun h => ?_, fun h => ?_, fun h => ?_⟩
  · rw [← rdB_sqrt_sq_abs hp h]
    exact hm (Real.sqrt_le_sqrt (hxy.trans h1))
  · rw [← rdB_sqrt_sq_abs hp h]
    exact hm (Real.sqrt_le_sqrt (hyx.trans h1))
  · rw [← rdB_sqrt_sq_abs hp h]
    exact hm (Real.sqrt_le_sqrt h2)

/-- The argument of `arccos` in `inclination` never leaves `[-1, 1]`. -/
theorem C77_inclination_arg (hp : 2 ≤ p) (h : V3 (Rnd (FB p))) (hz : Rep h.z) : |(h.z / V3.norm h).val| ≤ 1 := by
  have h1 := (C77_norm_ge hp h).2.2 hz
  show |rdB p (h.z.val / (V3.norm h).val)| ≤ 1
  rw [← rdB_abs, ← rdB_one hp]
  refine rdB_mono (by omega) ?_
  rw [abs_div, abs_of_nonneg (C77_norm_nonneg h)]
  exact div_le_one_of_le₀ h1 (C77_norm_nonneg h)

theorem norm_pos_iff (hp : 2 ≤ p) (h : V3 (Rnd (FB p))) : 0 < (V3.norm h).val ↔ h.x.val ≠ 0 ∨ h.y.val ≠ 0 ∨ h.z.val ≠ 0 := by
  have h1 : 1 ≤ p := by omega
  have nn : ∀ t : ℝ, 0 ≤ rdB p (t * t) := fun t => rdB_nonneg p (mul_self_nonneg t)
  have pp : ∀ t : ℝ, t ≠ 0 → 0 < rdB p (t * t) := fun t ht => rdB_pos h1 (mul_self_pos.2 ht)
  rw [norm_val, rdB_pos_iff h1, Real.sqrt_pos, rdB_pos_iff h1]
  constructor
  · intro hpos
    by_contra hc
    push Not at hc
    obtain ⟨e1, e2, e3⟩ := hc
    simp [e1, e2, e3, rdB_zero] at hpos
  · have na := rdB_nonneg p (add_nonneg (nn h.x.val) (nn h.y.val))
    rintro (hx | hx | hx)
    · have := rdB_pos h1 (add_pos_of_pos_of_nonneg (pp _ hx) (nn h.y.val))
      have := nn h.z.val
      linarith
    · have := rdB_pos h1 (add_pos_of_nonneg_of_pos (nn h.x.val) (pp _ hx))
      have := nn h.z.val
      linarith
    · have := pp _ hx
      linarith

theorem rd_pi_le (p : ℕ) : rdB p Real.pi ≤ 2 * Real.pi := by
  have h1 := (abs_le.1 (rdB_rel p Real.pi)).2
  have h2 : (2 : ℝ) ^ (-(p : ℤ)) ≤ 1 := zpow_le_one_of_nonpos₀ (by norm_num) (by omega)
  rw [abs_of_pos Real.pi_pos] at h1
  nlinarith [Real.pi_pos]

/-- So with overflow and NaN in the model, the inclination of every vector other than zero is a number (`K` bounds the components;
`4K²` must not overflow). -/
theorem C77_inclination_not_nan {Ω K : ℝ} (hp : 10 ≤ p) {h : V3 (Fl (FB p) Ω)} {h' : V3 (Rnd (FB p))} (ht : TrV K h h')
    (hK : 1 ≤ K) (hΩ : 4 * (K * K) ≤ Ω) (hΩ2 : 7 ≤ Ω) (hz : Rep h'.z) (hne : h'.x.val ≠ 0 ∨ h'.y.val ≠ 0 ∨ h'.z.val ≠ 0) :
    inclination h = Fl.fin (inclination h').val ∧ 0 ≤ (inclination h').val ∧ (inclination h').val ≤ rdB p Real.pi := by
  have hn := TrV.norm (stdModel_FB p hp) ht hK hΩ
  have h0 := (norm_pos_iff (by omega) h').2 hne
  have h1 := C77_inclination_arg (by omega) h' hz
  have hr1 : 0 ≤ (inclination h').val := rdB_nonneg p (Real.arccos_nonneg _)
  have hr2 : (inclination h').val ≤ rdB p Real.pi := rdB_mono (by omega) (Real.arccos_le_pi _)
  refine ⟨?_, hr1, hr2⟩
  have hd : h.z / V3.norm h = Fl.fin (h'.z / V3.norm h').val := by
    rw [ht.z.eq, hn.eq]
    exact Fl.div_fin h0.ne' (h1.trans (by linarith))
  show JFun.arccos (h.z / V3.norm h) = _
  rw [hd]
  refine Fl.ext ?_
  show (if _ ∨ _ then _ else _) = _
  obtain ⟨a1, a2⟩ := abs_le.1 h1
  rw [if_neg (by rintro (h | h) <;> linarith), Fl.clip_le]
  · rfl
  · have := rd_pi_le p
    have := Real.pi_lt_d2
    exact (abs_of_nonneg hr1).le.trans (by linarith)

/-! ### Ranges of the elements -/

theorem arctan2_upper (hp : 2 ≤ p) {y x : Rnd (FB p)} (hy : 0 ≤ y.val) :
    0 ≤ (wrapNeg (JFun.arctan2 y x)).val ∧ (wrapNeg (JFun.arctan2 y x)).val ≤ rdB p Real.pi := by
  have h1 : 0 ≤ (JFun.arctan2 y x).val := rdB_nonneg p (Complex.arg_nonneg_iff.2 hy)
  have h2 : (JFun.arctan2 y x).val ≤ rdB p Real.pi := rdB_mono (by omega) (Complex.arg_le_pi _)
  have : wrapNeg (JFun.arctan2 y x) = JFun.arctan2 y x := by
    unfold wrapNeg
    rw [lt_rnd, val_zero, decide_eq_false (not_lt.2 h1)]; rfl
  rw [this]
  exact ⟨h1, h2⟩

theorem C77_right_ascension (hp : 2 ≤ p) (N : V3 (Rnd (FB p))) :
    0 ≤ (right_ascension N).val ∧ (right_ascension N).val ≤ (((2 : ℕ) : Rnd (FB p)) * JFun.pi).val := by
  have hm := rdB_mono (p := p) (by omega)
  have hi := rdB_rdB (p := p) (by omega)
  have hpi := rdB_nonneg p Real.pi_pos.le
  set T := (((2 : ℕ) : Rnd (FB p)) * JFun.pi).val with hT
  have hTv : T = rdB p (2 * rdB p Real.pi) := by
    rw [hT, val_mul, val_two hp]; rfl
  have h2 : rdB p Real.pi ≤ T := by
    have := hm (show rdB p Real.pi ≤ 2 * rdB p Real.pi by linarith)
    rw [hi] at this
    rw [hTv]; exact this
  have a1 : (JFun.arctan2 N.y N.x).val ≤ rdB p Real.pi := hm (Complex.arg_le_pi _)
  have a2 : -rdB p Real.pi ≤ (JFun.arctan2 N.y N.x).val := by
    rw [← rdB_neg]; exact hm (Complex.neg_pi_lt_arg _).le
  unfold right_ascension wrapNeg
  simp only [lt_rnd, val_zero]
  by_cases h0 : (JFun.arctan2 N.y N.x).val < 0
  · rw [if_pos (by simpa using h0), val_add, ← hT]
    refine ⟨rdB_nonneg p (by linarith), ?_⟩
    have h3 := hm (show T + (JFun.arctan2 N.y N.x).val ≤ T by linarith)
    have h4 : rdB p T = T := by rw [hTv]; exact hi _
    rw [h4] at h3
    exact h3
  · rw [if_neg (by simpa using h0)]
    exact ⟨not_lt.1 h0, a1.trans h2⟩

/-- Closed ranges of all six elements, for every state: no hypotheses on shape or position are needed. -/
theorem C77_ranges (hp : 2 ≤ p) (r v : V3 (Rnd (FB p))) {mu : Rnd (FB p)} (hmu : 0 ≤ mu.val) :
    0 ≤ (rv2coe r v mu).p.val ∧ 0 ≤ (rv2coe r v mu).e.val ∧
    (0 ≤ (rv2coe r v mu).incl.val ∧ (rv2coe r v mu).incl.val ≤ rdB p Real.pi) ∧
    (0 ≤ (rv2coe r v mu).raan.val ∧ (rv2coe r v mu).raan.val ≤ (((2 : ℕ) : Rnd (FB p)) * JFun.pi).val) ∧
    (0 ≤ (rv2coe r v mu).argp.val ∧ (rv2coe r v mu).argp.val ≤ rdB p Real.pi) ∧
    (0 ≤ (rv2coe r v mu).true_anom.val ∧ (rv2coe r v mu).true_anom.val ≤ rdB p Real.pi) :=
  ⟨rdB_nonneg p (div_nonneg (rdB_nonneg p (mul_self_nonneg _)) hmu), C77_norm_nonneg _,
    ⟨rdB_nonneg p (Real.arccos_nonneg _), rdB_mono (by omega) (Real.arccos_le_pi _)⟩, C77_right_ascension hp _,
    arctan2_upper hp (C77_norm_nonneg _), arctan2_upper hp (C77_norm_nonneg _)⟩

/-- And in `rv2coe` the argument of `arccos` is within `[-1, 1]`, also without hypotheses. -/
theorem C77_rv2coe_arccos (hp : 2 ≤ p) (r v : V3 (Rnd (FB p))) :
    |((angular_momentum r v).z / V3.norm (angular_momentum r v)).val| ≤ 1 :=
  C77_inclination_arg hp _ (rep_sub hp _ _)

/-! ### Orderings -/

theorem abs_cos_le (hp : 2 ≤ p) (f : Rnd (FB p)) : |(JFun.cos f).val| ≤ 1 := by
  show |rdB p (Real.cos f.val)| ≤ 1
  rw [← rdB_abs, ← rdB_one hp]
  exact rdB_mono (by omega) (Real.abs_cos_le_one _)

theorem abs_ecos_le (hp : 2 ≤ p) (e f : Rnd (FB p)) (he : Rep e) : |(e * JFun.cos f).val| ≤ |e.val| := by
  show |rdB p (e.val * (JFun.cos f).val)| ≤ |e.val|
  rw [← rdB_abs, ← he, ← rdB_abs, he]
  refine rdB_mono (by omega) ?_
  rw [abs_mul]
  exact mul_le_of_le_one_right (abs_nonneg _) (abs_cos_le hp f)

/-- The computed radius of the orbit equation lies between the computed apsides. -/
theorem C77_apsides (hp : 2 ≤ p) {P e : Rnd (FB p)} (f : Rnd (FB p)) (hP : 0 ≤ P.val) (he0 : 0 ≤ e.val) (he1 : e.val < 1) (he : Rep e) :
    (radius_periapsis P e).val ≤ (equ_of_orbit P e f).val ∧ (equ_of_orbit P e f).val ≤ (radius_apoapsis P e).val := by
  have hm := rdB_mono (p := p) (by omega)
  have hc := abs_le.1 (abs_ecos_le hp e f he)
  rw [abs_of_nonneg he0] at hc
  have h1 : 0 < rdB p (1 - e.val) := rdB_pos (by omega) (by linarith)
  have h2 : rdB p (1 - e.val) ≤ rdB p (1 + (e * JFun.cos f).val) := hm (by linarith [hc.1])
  have h3 : rdB p (1 + (e * JFun.cos f).val) ≤ rdB p (1 + e.val) := hm (by linarith [hc.2])
  have e1 : (radius_periapsis P e).val = rdB p (P.val / rdB p (1 + e.val)) := by
    unfold radius_periapsis; rw [val_div, val_add, val_one hp]; rfl
  have e2 : (radius_apoapsis P e).val = rdB p (P.val / rdB p (1 - e.val)) := by
    unfold radius_apoapsis; rw [val_div, val_sub, val_one hp]; rfl
  have e3 : (equ_of_orbit P e f).val = rdB p (P.val / rdB p (1 + (e * JFun.cos f).val)) := by
    unfold equ_of_orbit; rw [val_div, val_add, val_one hp]; rfl
  rw [e1, e2, e3]
  exact ⟨hm (div_le_div_of_nonneg_left hP (h1.trans_le h2) h3), hm (div_le_div_of_nonneg_left hP h1 h2)⟩

/-- The divisors of the two Newton iterations are positive: no division by zero in `solve_kepler_elps` and `solve_kepler_hypb`. -/
theorem C77_dE_pos (hp : 2 ≤ p) {e : Rnd (FB p)} (E : Rnd (FB p)) (he1 : |e.val| < 1) (he : Rep e) : 0 < (dE E e).val := by
  have hc := (abs_le.1 (abs_ecos_le hp e E he)).2
  unfold dE
  rw [val_sub, val_one hp]
  exact rdB_pos (by omega) (by linarith)

theorem C77_dH_pos (hp : 2 ≤ p) {e : Rnd (FB p)} (H : Rnd (FB p)) (he1 : 1 < e.val) (he : Rep e) : 0 < (dH H e).val := by
  have hm := rdB_mono (p := p) (by omega)
  have h1 : 1 ≤ (JFun.cosh H).val := by
    show 1 ≤ rdB p (Real.cosh H.val)
    rw [← rdB_one hp]; exact hm (Real.one_le_cosh _)
  have h2 : e.val ≤ (e * JFun.cosh H).val := by
    rw [val_mul]
    refine le_trans he.ge (hm ?_)
    nlinarith
  unfold dH
  rw [val_sub, val_one hp]
  exact rdB_pos (by omega) (by linarith)

/-- The event function has the sign of the comparison of the computed radius with the threshold. -/
theorem C77_radius_islow (hp : 2 ≤ p) (t : Rnd (FB p)) (x : State (Rnd (FB p))) {args : Args (Rnd (FB p))} {rmin : Rnd (FB p)}
    (h : args "rmin" = some rmin) : ∃ g, radius_islow t x args = .ok g ∧ (g.val < 0 ↔ (V3.norm x.pos).val < rmin.val) ∧
    (0 < g.val ↔ rmin.val < (V3.norm x.pos).val) := by
  refine ⟨V3.norm x.pos - rmin, ?_, ?_, ?_⟩
  · simp [radius_islow, Args.get, h, bind, Except.bind, pure, Except.pure]
  · show rdB p _ < 0 ↔ _
    rw [rdB_neg_iff (by omega), sub_neg]
  · show 0 < rdB p _ ↔ _
    rw [rdB_pos_iff (by omega), sub_pos]

/-- Larger orbits have larger computed periods. -/
theorem C77_orb_period_mono (hp : 2 ≤ p) {a b mu : Rnd (FB p)} (ha : 0 ≤ a.val) (hab : a.val ≤ b.val) (hmu : 0 ≤ mu.val) :
    (orb_period a mu).val ≤ (orb_period b mu).val := by
  have hm := rdB_mono (p := p) (by omega)
  have hb := ha.trans hab
  have c3 : (a ^ 3).val ≤ (b ^ 3).val := by
    show rdB p (rdB p (a.val * a.val) * a.val) ≤ rdB p (rdB p (b.val * b.val) * b.val)
    exact hm (mul_le_mul (hm (mul_le_mul hab hab ha hb)) hab ha (rdB_nonneg p (mul_self_nonneg _)))
  have hT : 0 ≤ (((2 : ℕ) : Rnd (FB p)) * JFun.pi).val := by
    rw [val_mul, val_two hp]
    exact rdB_nonneg p (mul_nonneg (by norm_num) (rdB_nonneg p Real.pi_pos.le))
  show rdB p ((((2 : ℕ) : Rnd (FB p)) * JFun.pi).val * rdB p (Real.sqrt (rdB p ((a ^ 3).val / mu.val))))
    ≤ rdB p ((((2 : ℕ) : Rnd (FB p)) * JFun.pi).val * rdB p (Real.sqrt (rdB p ((b ^ 3).val / mu.val))))
  exact hm (mul_le_mul_of_nonneg_left (hm (Real.sqrt_le_sqrt (hm (div_le_div_of_nonneg_right c3 hmu)))) hT)

/-- Longer periods give smaller computed mean motions. -/
theorem C77_mean_motion_anti (hp : 2 ≤ p) {P Q : Rnd (FB p)} (hP : 0 < P.val) (h : P.val ≤ Q.val) :
    (mean_motion Q).val ≤ (mean_motion P).val := by
  have hT : 0 ≤ (((2 : ℕ) : Rnd (FB p)) * JFun.pi).val := by
    rw [val_mul, val_two hp]
    exact rdB_nonneg p (mul_nonneg (by norm_num) (rdB_nonneg p Real.pi_pos.le))
  exact rdB_mono (by omega) (div_le_div_of_nonneg_left hT hP h)

/-- The computed mean anomalies grow with time; `nmax_by_periapsis` grows with the time of flight and is not negative. -/
theorem C77_time_mono (hp : 2 ≤ p) {t s : Rnd (FB p)} (h : t.val ≤ s.val) (a mu rp r1 r2 : Rnd (FB p)) :
    (mean_anomaly_elps a t mu).val ≤ (mean_anomaly_elps a s mu).val ∧
    (mean_anomaly_hypb a t mu).val ≤ (mean_anomaly_hypb a s mu).val ∧
    (nmax_by_periapsis rp r1 r2 t mu).val ≤ (nmax_by_periapsis rp r1 r2 s mu).val ∧
    (0 ≤ t.val → 0 ≤ (nmax_by_periapsis rp r1 r2 t mu).val) := by
  have hm := rdB_mono (p := p) (by omega)
  have hq : ∀ x : Rnd (FB p), 0 ≤ (JFun.sqrt x).val := fun x => rdB_nonneg p (Real.sqrt_nonneg _)
  have hT : 0 ≤ (((2 : ℕ) : Rnd (FB p)) * JFun.pi).val := by
    rw [val_mul, val_two hp]
    exact rdB_nonneg p (mul_nonneg (by norm_num) (rdB_nonneg p Real.pi_pos.le))
  refine ⟨hm (mul_le_mul_of_nonneg_left h (hq _)), hm (mul_le_mul_of_nonneg_left h (hq _)), ?_, fun h0 => ?_⟩
  · show ((⌊rdB p (rdB p (t.val / _) * _)⌋ : ℤ) : ℝ) ≤ ((⌊rdB p (rdB p (s.val / _) * _)⌋ : ℤ) : ℝ)
    exact_mod_cast Int.floor_mono (hm (mul_le_mul_of_nonneg_right (hm (div_le_div_of_nonneg_right h hT)) (hq _)))
  · show (0 : ℝ) ≤ ((⌊rdB p (rdB p (t.val / _) * _)⌋ : ℤ) : ℝ)
    exact_mod_cast Int.floor_nonneg.2 (rdB_nonneg p (mul_nonneg (rdB_nonneg p (div_nonneg h0 hT)) (hq _)))

/-! ### What it does not keep -/

theorem rd_pi_bounds (hp : 10 ≤ p) : 3.1 < rdB p Real.pi ∧ rdB p Real.pi < 3.2 := by
  have h1 := abs_le.1 (rdB_rel p Real.pi)
  have h2 : (2 : ℝ) ^ (-(p : ℤ)) ≤ 1 / 1000 := by
    calc (2 : ℝ) ^ (-(p : ℤ)) ≤ (2 : ℝ) ^ (-10 : ℤ) := zpow_le_zpow_right₀ (by norm_num) (by omega)
      _ ≤ _ := by norm_num
  rw [abs_of_pos Real.pi_pos] at h1
  have := Real.pi_gt_d2
  have := Real.pi_lt_d2
  constructor <;> nlinarith [h1.1, h1.2]

/-- The right ascension does reach `2 pi`: for a node a little below the `x` axis, `2 * pi + raan` rounds to `2 * pi`, in every precision. -/
theorem C77_raan_two_pi (hp : 10 ≤ p) (z : Rnd (FB p)) {d : ℝ} (hd0 : 0 < d) (hd : d ≤ (2 : ℝ) ^ (-(p : ℤ))) :
    (right_ascension ⟨(⟨1⟩ : Rnd (FB p)), ⟨-d⟩, z⟩).val = (((2 : ℕ) : Rnd (FB p)) * JFun.pi).val := by
  have hm := rdB_mono (p := p) (by omega)
  have hi := rdB_rdB (p := p) (by omega)
  obtain ⟨b1, b2⟩ := rd_pi_bounds hp
  set T := (((2 : ℕ) : Rnd (FB p)) * JFun.pi).val with hT
  have hTv : T = rdB p (2 * rdB p Real.pi) := by rw [hT, val_mul, val_two (by omega)]; rfl
  have hT1 : 6 < T ∧ T < 7 := by
    have h1 := abs_le.1 (rdB_rel p (2 * rdB p Real.pi))
    have h2 : (2 : ℝ) ^ (-(p : ℤ)) ≤ 1 / 1000 := by
      calc (2 : ℝ) ^ (-(p : ℤ)) ≤ (2 : ℝ) ^ (-10 : ℤ) := zpow_le_zpow_right₀ (by norm_num) (by omega)
        _ ≤ _ := by norm_num
    rw [abs_of_pos (by linarith : (0 : ℝ) < 2 * rdB p Real.pi), ← hTv] at h1
    constructor <;> nlinarith [h1.1, h1.2]
  have hfix : rdB p T = T := by rw [hTv]; exact hi _
  -- the angle
  have hneg : Complex.arg ⟨1, -d⟩ < 0 := Complex.arg_neg_iff.2 (by simpa using hd0)
  have hlow : -d ≤ Complex.arg ⟨1, -d⟩ := by
    have h1 : |Complex.arg ⟨1, -d⟩| < Real.pi / 2 := Complex.abs_arg_lt_pi_div_two_iff.2 (Or.inl (by simp))
    have h2 := Real.le_tan (x := -Complex.arg ⟨1, -d⟩) (by linarith) (by linarith [(abs_lt.1 h1).1])
    rw [Real.tan_neg, Complex.tan_arg] at h2
    simp at h2
    linarith
  have hv : (JFun.arctan2 (⟨-d⟩ : Rnd (FB p)) ⟨1⟩).val = rdB p (Complex.arg ⟨1, -d⟩) := rfl
  set A := rdB p (Complex.arg ⟨1, -d⟩) with hA
  have hA0 : A < 0 := (rdB_neg_iff (by omega)).2 hneg
  have hA1 : -(2 : ℝ) ^ (-(p : ℤ)) ≤ A := by
    have h1 := hm (show -(2 : ℝ) ^ (-(p : ℤ)) ≤ Complex.arg ⟨1, -d⟩ by linarith)
    rwa [rdB_neg, rdB_zpow (by omega)] at h1
  -- the sum
  have hlog : Int.log 2 |T| = 2 := by
    rw [abs_of_pos (by linarith)]
    refine le_antisymm ?_ ?_
    · have := (Int.lt_zpow_iff_log_lt (b := 2) (by norm_num) (by linarith : 0 < T) (x := 3)).1 (by norm_num; linarith)
      omega
    · exact (Int.zpow_le_iff_le_log (b := 2) (by norm_num) (by linarith : 0 < T)).1 (by norm_num; linarith)
  obtain ⟨m, hmT⟩ := rdB_fix T hfix
  have hul : ulpB p T = (2 : ℝ) ^ ((2 : ℤ) - (p - 1)) := by unfold ulpB; rw [hlog]
  rw [hul] at hmT
  have hsmall : (2 : ℝ) ^ (-(p : ℤ)) ≤ 1 / 1000 := by
    calc (2 : ℝ) ^ (-(p : ℤ)) ≤ (2 : ℝ) ^ (-10 : ℤ) := zpow_le_zpow_right₀ (by norm_num) (by omega)
      _ ≤ _ := by norm_num
  have hu8 : (2 : ℝ) ^ ((2 : ℤ) - (p - 1)) = 8 * (2 : ℝ) ^ (-(p : ℤ)) := by
    rw [show (8 : ℝ) = (2 : ℝ) ^ (3 : ℤ) by norm_num, ← zpow_add₀ (by norm_num)]
    congr 1; ring
  have hpos : (0 : ℝ) < (2 : ℝ) ^ (-(p : ℤ)) := by positivity
  have key : rdB p (T + A) = T := by
    have := rdB_eq_of_near (p := p) (y := T + A) (k := 2) (m := m) (by norm_num; linarith) (by norm_num; linarith)
      (by
        rw [← hmT, show T + A - T = A by ring, abs_of_neg hA0, hu8]
        linarith)
    rw [this, ← hmT]
  unfold right_ascension wrapNeg
  simp only [lt_rnd, val_zero]
  rw [hv, if_pos (by simpa using hA0), val_add, ← hT]
  show rdB p (T + (JFun.arctan2 (⟨-d⟩ : Rnd (FB p)) ⟨1⟩).val) = T
  rw [hv]
  exact key

/-- In single precision `pi` is rounded up, so angles of `rv2coe` exceed `pi`: an opposite apsis has true anomaly `> π`. -/
theorem C77_anomaly_above_pi : Real.pi < (true_anomaly ⟨(⟨-1⟩ : Rnd (FB 24)), ⟨0⟩, ⟨0⟩⟩ ⟨⟨1⟩, ⟨0⟩, ⟨0⟩⟩).val := by
  have h1 : (true_anomaly ⟨(⟨-1⟩ : Rnd (FB 24)), ⟨0⟩, ⟨0⟩⟩ ⟨⟨1⟩, ⟨0⟩, ⟨0⟩⟩).val = rdB 24 Real.pi := by
    have hrd : (FB 24).rd = rdB 24 := rfl
    have e1 : (V3.norm (V3.cross (⟨⟨1⟩, ⟨0⟩, ⟨0⟩⟩ : V3 (Rnd (FB 24))) ⟨⟨-1⟩, ⟨0⟩, ⟨0⟩⟩)).val = 0 := by
      rw [norm_val]
      simp [V3.cross, hrd, rdB_zero]
    have e2 : (V3.dot (⟨⟨1⟩, ⟨0⟩, ⟨0⟩⟩ : V3 (Rnd (FB 24))) ⟨⟨-1⟩, ⟨0⟩, ⟨0⟩⟩).val = -1 := by
      simp [V3.dot, hrd, rdB_zero, rdB_neg, rdB_one]
    have e3 : (JFun.arctan2 (V3.norm (V3.cross (⟨⟨1⟩, ⟨0⟩, ⟨0⟩⟩ : V3 (Rnd (FB 24))) ⟨⟨-1⟩, ⟨0⟩, ⟨0⟩⟩))
        (V3.dot (⟨⟨1⟩, ⟨0⟩, ⟨0⟩⟩ : V3 (Rnd (FB 24))) ⟨⟨-1⟩, ⟨0⟩, ⟨0⟩⟩)).val = rdB 24 Real.pi := by
      show rdB 24 (Complex.arg ⟨_, _⟩) = _
      rw [e1, e2, show (⟨-1, 0⟩ : ℂ) = ((-1 : ℝ) : ℂ) from by apply Complex.ext <;> simp,
        Complex.arg_ofReal_of_neg (by norm_num)]
    unfold true_anomaly wrapNeg
    simp only [lt_rnd, val_zero, e3]
    rw [if_neg (by simpa using rdB_nonneg 24 Real.pi_pos.le)]
    exact e3
  have h2 := rdB_eq_of_near (p := 24) (y := Real.pi) (k := 1) (m := 13176795) (by norm_num; linarith [Real.pi_gt_d2])
    (by norm_num; linarith [Real.pi_lt_d2])
    (by
      have := Real.pi_gt_d20
      have := Real.pi_lt_d20
      rw [abs_lt]
      constructor <;> norm_num <;> norm_num at * <;> linarith)
  rw [h1, h2]
  have := Real.pi_lt_d20
  norm_num at this ⊢
  linarith

/-- Concrete cases for the hypotheses above. -/
example : (radius_periapsis (⟨1⟩ : Rnd (FB 24)) ⟨1 / 2⟩).val ≤ (equ_of_orbit (⟨1⟩ : Rnd (FB 24)) ⟨1 / 2⟩ ⟨1⟩).val :=
  (C77_apsides (by norm_num) _ (by norm_num) (by norm_num) (by norm_num)
    (by show rdB 24 (1 / 2) = 1 / 2
        have := rdB_zpow (p := 24) (by norm_num) (-1)
        norm_num at this ⊢
        exact this)).1
example (E : Rnd (FB 53)) : 0 < (dE E ⟨1 / 2⟩).val :=
  C77_dE_pos (by norm_num) E (by norm_num [abs_of_pos]) (by
    have := rdB_zpow (p := 53) (by norm_num) (-1)
    norm_num at this
    unfold Rep; norm_num; exact this)
example (H : Rnd (FB 53)) : 0 < (dH H ⟨2⟩).val := C77_dH_pos (by norm_num) H (by norm_num) (rdB_two (by norm_num))
example : (orb_period (⟨1⟩ : Rnd (FB 53)) ⟨1⟩).val ≤ (orb_period (⟨2⟩ : Rnd (FB 53)) ⟨1⟩).val :=
  C77_orb_period_mono (by norm_num) (by norm_num) (by norm_num) (by norm_num)
example (r v : V3 (Rnd (FB 53))) : (rv2coe r v ⟨1⟩).true_anom.val ≤ rdB 53 Real.pi :=
  (C77_ranges (by norm_num) r v (by norm_num)).2.2.2.2.2.2
example (r v : V3 (Rnd (FB 24))) :
    |((angular_momentum r v).x).val| ≤ (V3.norm (angular_momentum r v)).val :=
  (C77_norm_ge (by norm_num) _).1 (rep_sub (by norm_num) _ _)
example (r v : V3 (Rnd (FB 24))) (h : angular_momentum r v = ⟨⟨0⟩, ⟨0⟩, ⟨1⟩⟩) : 0 < (V3.norm (angular_momentum r v)).val :=
  (norm_pos_iff (by norm_num) _).2 (by simp [h])
example (h : V3 (Fl (FB 53) (2 ^ 1023))) (hh : h = ⟨.fin 0, .fin 0, .fin 1⟩) :
    inclination h = Fl.fin (inclination (⟨⟨0⟩, ⟨0⟩, ⟨1⟩⟩ : V3 (Rnd (FB 53)))).val :=
  (C77_inclination_not_nan (K := 1) (by norm_num) (h' := ⟨⟨0⟩, ⟨0⟩, ⟨1⟩⟩)
    (by subst hh; exact ⟨⟨rfl, by norm_num⟩, ⟨rfl, by norm_num⟩, ⟨rfl, by norm_num⟩⟩) le_rfl
    (le_trans (by norm_num) (pow_le_pow_right₀ (by norm_num) (by norm_num : 3 ≤ 1023)))
    (le_trans (by norm_num) (pow_le_pow_right₀ (by norm_num) (by norm_num : 3 ≤ 1023)))
    (rdB_one (by norm_num)) (by simp)).1
example (t : Rnd (FB 53)) (x : State (Rnd (FB 53))) : ∃ g, radius_islow t x (fun _ => some ⟨1⟩) = .ok g ∧
    (g.val < 0 ↔ (V3.norm x.pos).val < 1) :=
  let ⟨g, h1, h2, _⟩ := C77_radius_islow (by norm_num) t x (args := fun _ => some ⟨1⟩) rfl
  ⟨g, h1, h2⟩
example : (right_ascension ⟨(⟨1⟩ : Rnd (FB 53)), ⟨-(1 / 2 ^ 60)⟩, ⟨0⟩⟩).val = (((2 : ℕ) : Rnd (FB 53)) * JFun.pi).val :=
  C77_raan_two_pi (by norm_num) _ (by positivity) (by norm_num)

end
end Adx
