import Verif.Props.C68g
import Verif.Props.C69d

/-!
# C69, part 5: `kepler` on ellipses of low eccentricity does not overflow

For an eccentricity of at most 1/4, `1e-9 ≤ 1/a ≤ 1e6`, `1e-6 ≤ mu ≤ 1e16` and a mean anomaly advance of at most `1e6`, no
intermediate result of `kepler` reaches `3e38`: the result is that of the arithmetic without overflow, and C68 applies to it.
-/

namespace Adx
open Spec Fl V3

variable {F : Fp} {Ω u L : ℝ}

/-- States and times of flight of ordinary size. -/
structure Sized (r v : V3 (Rnd F)) (mu t : Rnd F) : Prop where
  mu1 : 1e-6 ≤ mu.val
  mu2 : mu.val ≤ 1e16
  hh : angular_momentum r.re v.re ≠ ⟨0, 0, 0⟩
  α1 : 1e-9 ≤ alphaOf r.re v.re mu.val
  α2 : alphaOf r.re v.re mu.val ≤ 1e6
  he : eOf r.re v.re mu.val ≤ 1 / 4
  T : advance r v mu t ≤ 1e6

variable {r v : V3 (Rnd F)} {mu t : Rnd F}

namespace Sized

theorem mu0 (S : Sized r v mu t) : 0 < mu.val := lt_of_lt_of_le (by norm_num) S.mu1
theorem α0 (S : Sized r v mu t) : 0 < alphaOf r.re v.re mu.val := lt_of_lt_of_le (by norm_num) S.α1

/-- The real quantities. -/
theorem sizes (S : Sized r v mu t) :
    3.1e-5 ≤ Real.sqrt (alphaOf r.re v.re mu.val) ∧ Real.sqrt (alphaOf r.re v.re mu.val) ≤ 1e3 ∧
    7.5e-7 ≤ V3.norm r.re ∧ V3.norm r.re ≤ 1.25e9 ∧ V3.norm v.re ≤ 1.3e11 ∧
    1e-3 ≤ Real.sqrt mu.val ∧ Real.sqrt mu.val ≤ 1e8 ∧ Real.sqrt mu.val * |t.val| ≤ 3.3e19 ∧ |t.val| ≤ 3.3e22 ∧
    sMag r.re v.re mu.val ≤ 3.3e4 ∧ 7.5e-7 ≤ qOf r.re v.re mu.val := by
  obtain ⟨a1, a2, a3, a4, -, a6, -⟩ := lowecc S.mu0 S.hh S.α0 S.he
  have hT := S.T
  have s1 := S.α1
  have s2 := S.α2
  have hα := S.α0
  have hb1 : 3.1e-5 ≤ Real.sqrt (alphaOf r.re v.re mu.val) := Real.le_sqrt_of_sq_le (by norm_num at s1 ⊢; linarith)
  have hb2 : Real.sqrt (alphaOf r.re v.re mu.val) ≤ 1e3 := Real.sqrt_le_iff.2 ⟨by norm_num, by norm_num at s2 ⊢; linarith⟩
  have hw1 : 1e-3 ≤ Real.sqrt mu.val := Real.le_sqrt_of_sq_le (by have := S.mu1; norm_num at this ⊢; linarith)
  have hw2 : Real.sqrt mu.val ≤ 1e8 := Real.sqrt_le_iff.2 ⟨by norm_num, by have := S.mu2; norm_num at this ⊢; linarith⟩
  have hr0 : 0 ≤ V3.norm r.re := V3.norm_nonneg _
  have hq0 := (qOf_pos S.mu0 S.hh).le
  have hs0 : 0 ≤ sMag r.re v.re mu.val :=
    div_nonneg (mul_nonneg hr0 (V3.norm_nonneg _)) (Real.sqrt_nonneg _)
  unfold advance at hT
  set α := alphaOf r.re v.re mu.val
  set b := Real.sqrt α
  set w := Real.sqrt mu.val
  have hb0 : 0 < b := lt_of_lt_of_le (by norm_num) hb1
  have hw0 : 0 < w := lt_of_lt_of_le (by norm_num) hw1
  have ht0 := abs_nonneg t.val
  have lo : ∀ {x : ℝ}, 0 ≤ x → 3 / 4 ≤ α * x → 7.5e-7 ≤ x := fun {x} hx h => by
    have : α * x ≤ 1e6 * x := mul_le_mul_of_nonneg_right s2 hx
    norm_num at this ⊢; linarith
  have hwt : w * |t.val| ≤ 3.3e19 := by
    have h1 : 1e-9 * 3.1e-5 * (w * |t.val|) ≤ α * b * (w * |t.val|) := by gcongr
    norm_num at h1 hT ⊢; linarith
  refine ⟨hb1, hb2, lo hr0 a1, ?_, ?_, hw1, hw2, hwt, ?_, ?_, lo hq0 a4⟩
  · have : 1e-9 * V3.norm r.re ≤ α * V3.norm r.re := mul_le_mul_of_nonneg_right s1 hr0
    norm_num at this ⊢; linarith
  · refine a6.trans ?_
    calc 1.3 * (w * b) ≤ 1.3 * (1e8 * 1e3) := by gcongr
      _ ≤ _ := by norm_num
  · have : 1e-3 * |t.val| ≤ w * |t.val| := mul_le_mul_of_nonneg_right hw1 ht0
    norm_num at this hwt ⊢; linarith
  · have : sMag r.re v.re mu.val * 3.1e-5 ≤ sMag r.re v.re mu.val * b := mul_le_mul_of_nonneg_left hb1 hs0
    norm_num at this ⊢; linarith

end Sized

section
variable (hF : StdModel F u L) (h1 : 3e38 ≤ Ω) (S : Sized r v mu t)
include S

theorem tr_pos : TrV 1.25e9 (finVec r.re : V3 (Fl F Ω)) r := by
  have h := S.sizes.2.2.2.1
  exact ⟨.fin' ((V3.abs_x_le r.re).trans h), .fin' ((V3.abs_y_le r.re).trans h), .fin' ((V3.abs_z_le r.re).trans h)⟩

theorem tr_vel : TrV 1.3e11 (finVec v.re : V3 (Fl F Ω)) v := by
  have h := S.sizes.2.2.2.2.1
  exact ⟨.fin' ((V3.abs_x_le v.re).trans h), .fin' ((V3.abs_y_le v.re).trans h), .fin' ((V3.abs_z_le v.re).trans h)⟩

theorem tr_mu : Tr 1e16 (fin mu.val : Fl F Ω) mu := .fin' (by rw [abs_of_pos S.mu0]; exact S.mu2)

theorem tr_t : Tr 3.3e22 (fin t.val : Fl F Ω) t := .fin' S.sizes.2.2.2.2.2.2.2.2.1

include hF h1

theorem tr_sqrt_mu : Tr 1.01e8 (JFun.sqrt (fin mu.val : Fl F Ω)) (JFun.sqrt mu) ∧ 9.9e-4 ≤ |(JFun.sqrt mu).val| := by
  obtain ⟨-, -, -, -, -, w1, -⟩ := S.sizes
  constructor
  · refine ((tr_mu S).sqrt hF S.mu0.le (by norm_num) (by norm_num at h1 ⊢; linarith)).mono ?_
    rw [show (1e16 : ℝ) = 1e8 ^ 2 by norm_num, Real.sqrt_sq (by norm_num)]; norm_num
  · show _ ≤ |F.rd (Real.sqrt mu.val)|
    refine le_trans ?_ (rd_abs_ge hF _)
    rw [abs_of_nonneg (Real.sqrt_nonneg _)]
    norm_num at w1 ⊢; linarith

theorem tr_norm : Tr 2.5e9 (V3.norm (finVec r.re : V3 (Fl F Ω))) (V3.norm r) ∧ 7.4e-7 ≤ |(V3.norm r).val| := by
  obtain ⟨-, -, r1, -⟩ := S.sizes
  constructor
  · exact ((tr_pos S).norm hF (by norm_num) (by norm_num at h1 ⊢; linarith)).mono (by norm_num)
  · have h := within_abs_ge hF (within_norm hF r)
    have h3 := hF.u_small
    have hr0 : 0 ≤ V3.norm r.re := V3.norm_nonneg _
    rw [abs_of_nonneg hr0] at h
    have h2 : 0.99 * V3.norm r.re ≤ (1 - 1.01 * (5 / 2 * u)) * V3.norm r.re := by
      refine mul_le_mul_of_nonneg_right ?_ hr0
      norm_num; linarith
    norm_num at h2 h r1 ⊢; linarith

end

section
variable (hF : StdModel F u L) (h1 : 3e38 ≤ Ω) (S : Sized r v mu t) (hN : lossN L (advance r v mu t) * u ≤ 1 / 2000)
include hF S hN

theorem small_u : 1000 * u ≤ 1 / 2000 := by
  obtain ⟨-, -, -, f4, -, -⟩ := lossN_facts hF.one_le (advance_nonneg (t := t) S.α0)
  exact (mul_le_mul_of_nonneg_right f4 hF.u_pos.le).trans hN

include h1

theorem tr_alpha :
    Tr 1.02e6 (((1 : ℕ) : Fl F Ω) / semimajor_axis (V3.norm (finVec r.re : V3 (Fl F Ω)))
      (V3.norm (finVec v.re : V3 (Fl F Ω))) (fin mu.val)) (alphaR r v mu) ∧
    9.5e-10 ≤ (alphaR r v mu).val := by
  have hu := small_u hF S hN
  have hΩ3 : 1000 ≤ Ω := by norm_num at h1; linarith
  obtain ⟨tr, hR⟩ := tr_norm hF h1 S
  have a5 := (lowecc S.mu0 S.hh S.α0 S.he).2.2.2.2.1
  have hα := S.α0
  have e0 : alphaOf r.re v.re mu.val = 2 / V3.norm r.re - V3.norm v.re ^ 2 / mu.val := by
    have hvv := alpha_vv (r := r.re) (v := v.re) S.mu0.ne'
    rw [← norm_sq] at hvv
    have := S.mu0
    rw [hvv]; field_simp; ring
  have wD := within_energy hF r v mu (c := 5) S.mu0 (by rw [← e0]; exact hα.ne')
    (by rw [← e0, abs_of_pos hα]; exact a5) (by linarith)
  rw [← e0] at wD
  have wα := within_alpha hF r v mu S.mu0 hα.ne' (c := 5) (by rwa [abs_of_pos hα]) (by linarith)
  have s1 := S.α1
  have s2 := S.α2
  have tw := ((tr_vel (Ω := Ω) S).norm hF (by norm_num) (by norm_num at h1 ⊢; linarith)).mono (M := 2.6e11) (by norm_num)
  have t2r := ((Tr.lit (n := 2) hF hΩ3 (by norm_num)).div hF tr (m := 7.4e-7) (by norm_num) hR
    (by norm_num at h1 ⊢; linarith)).mono (M := 2.8e6) (by norm_num)
  have tv2 : Tr 6.8e22 (V3.norm (finVec v.re : V3 (Fl F Ω)) ^ 2) (V3.norm v ^ 2) :=
    (tw.mul hF tw (by norm_num at h1 ⊢; linarith)).mono (by norm_num)
  have tvm := (tv2.div hF (tr_mu S) (m := 1e-6) (by norm_num) (by rw [abs_of_pos S.mu0]; exact S.mu1)
      (by norm_num at h1 ⊢; linarith)).mono (M := 7e28) (by norm_num)
  have tD := t2r.sub hF tvm (by norm_num at h1 ⊢; linarith)
  have d1 := within_abs_ge hF wD
  have d2 := within_abs_le hF wD (by linarith)
  have q1 := within_abs_ge hF wα
  have q2 := within_abs_le hF wα (by linarith)
  have qp : 0 < (alphaR r v mu).val := wα.pos_iff.2 hα
  have fold : (((1 : ℕ) : Rnd F) / semimajor_axis (V3.norm r) (V3.norm v) mu).val = (alphaR r v mu).val := rfl
  rw [fold, abs_of_pos qp] at q1 q2
  rw [abs_of_pos hα] at d1 d2 q1 q2
  set α := alphaOf r.re v.re mu.val
  have low : ∀ k : ℝ, k ≤ 100 → 0.96 * α ≤ (1 - 1.01 * (k * u)) * α := fun k hk => by
    refine mul_le_mul_of_nonneg_right ?_ hα.le
    have : k * u ≤ 100 * u := mul_le_mul_of_nonneg_right hk hF.u_pos.le
    norm_num; linarith
  have l1 := low (16 * 5) (by norm_num)
  have l2 := low (16 * 5 + 2) (by norm_num)
  set D := ((2 : ℕ) : Rnd F) / V3.norm r - V3.norm v ^ 2 / mu with hD
  have d3 : 9.5e-10 ≤ |D.val| := by norm_num at l1 d1 s1 ⊢; linarith
  have d4 : |D.val| ≤ 1.02e6 := by norm_num at d2 s2 ⊢; linarith
  have tD' := tD.of_le d4
  have t1 := Tr.lit (n := 1) hF hΩ3 (by norm_num)
  have tA := (t1.div hF tD' (m := 9.5e-10) (by norm_num) d3 (by norm_num at h1 ⊢; linarith)).mono (M := 1.1e9) (by norm_num)
  have hAl : 9.7e-7 ≤ |(((1 : ℕ) : Rnd F) / D).val| := by
    have e : (((1 : ℕ) : Rnd F) / D).val = F.rd (F.rd (1 : ℕ) / D.val) := rfl
    rw [e, hF.lit 1 (by norm_num)]
    refine le_trans ?_ (rd_abs_ge hF _)
    have hD0 : 0 < |D.val| := lt_of_lt_of_le (by norm_num) d3
    have : 1 / 1.02e6 ≤ |((1 : ℕ) : ℝ) / D.val| := by
      rw [abs_div, Nat.abs_cast, Nat.cast_one]
      exact one_div_le_one_div_of_le hD0 d4
    norm_num at this ⊢; linarith
  have tα := t1.div hF tA (m := 9.7e-7) (by norm_num) hAl (by norm_num at h1 ⊢; linarith)
  refine ⟨tα.of_le (x := alphaR r v mu) ?_, ?_⟩
  · rw [abs_of_pos qp]; norm_num at q2 s2 ⊢; linarith
  · norm_num at l2 q1 s1 ⊢; linarith

theorem tr_sigma : Tr 3.4e4 (sigma_fn (finVec r.re) (finVec v.re) (fin mu.val : Fl F Ω)) (sigma_fn r v mu) := by
  have hu := small_u hF S hN
  obtain ⟨tm, hm⟩ := tr_sqrt_mu hF h1 S
  have t := ((tr_pos S).dot hF (tr_vel S) (by norm_num at h1 ⊢; linarith)).div hF tm (by norm_num) hm
    (by norm_num at h1 ⊢; linarith)
  refine t.of_le (x := sigma_fn r v mu) ?_
  obtain ⟨-, -, -, -, -, -, -, -, -, hs, -⟩ := S.sizes
  have hσ : Near u 5 (sMag r.re v.re mu.val) (sigma_fn r v mu).val (sigma_fn r.re v.re mu.val) :=
    (near_sigma hF r v mu).mono hF le_rfl (div_le_div_of_nonneg_right (V3.adot_le _ _) (Real.sqrt_nonneg _))
  have hb := hσ.bound hF (by norm_num) (by linarith)
  have hm0 := hσ.m_nonneg
  have hy := hσ.mag
  have hg : gam u 5 ≤ 1 / 100 := by
    unfold gam
    rw [div_le_iff₀ (by linarith)]; linarith
  have h2 : gam u 5 * sMag r.re v.re mu.val ≤ 1 / 100 * sMag r.re v.re mu.val := mul_le_mul_of_nonneg_right hg hm0
  have h3 : |(sigma_fn r v mu).val| ≤ |(sigma_fn r v mu).val - sigma_fn r.re v.re mu.val| + |sigma_fn r.re v.re mu.val| := by
    calc |(sigma_fn r v mu).val| = |((sigma_fn r v mu).val - sigma_fn r.re v.re mu.val) + sigma_fn r.re v.re mu.val| := by
          ring_nf
      _ ≤ _ := abs_add_le _ _
  norm_num at hs h2 ⊢
  linarith

end

section
variable (hF : StdModel F u L) (h1 : 3e38 ≤ Ω)
include hF h1

/-- The universal functions. -/
theorem ufunc_tr {a x : Fl F Ω} {A X : Rnd F} (ta : Tr 1.02e6 a A) (hA : 9.5e-10 ≤ A.val) (tx : Tr 4e10 x X) :
    Tr 1.12 (ufunc0 x a) (ufunc0 X A) ∧ Tr 3.7e4 (ufunc1 x a) (ufunc1 X A) ∧ Tr 2.3e9 (ufunc2 x a) (ufunc2 X A) ∧
    Tr 2e27 (ufunc3 x a) (ufunc3 X A) := by
  have hΩ3 : 1000 ≤ Ω := by norm_num at h1; linarith
  have hA0 : 0 < A.val := lt_of_lt_of_le (by norm_num) hA
  have l1 : JFun.lt (ℓ 0 : Fl F Ω) a = true := by rw [lit_zero hF hΩ3, ta.eq]; simpa using hA0
  have l2 : JFun.lt (ℓ 0 : Rnd F) A = true := by
    have e : (ℓ 0 : Rnd F).val = 0 := by show F.rd (0 : ℕ) = 0; rw [hF.lit 0 (by norm_num)]; simp
    rw [Rnd.lt_rnd, e]; simpa using hA0
  have hAa : 9.5e-10 ≤ |A.val| := hA.trans (le_abs_self _)
  have tb : Tr 1.02e3 (JFun.sqrt a) (JFun.sqrt A) := by
    refine (ta.sqrt hF hA0.le (by norm_num) (by norm_num at h1 ⊢; linarith)).mono ?_
    have : Real.sqrt 1.02e6 ≤ 1.015e3 := Real.sqrt_le_iff.2 ⟨by norm_num, by norm_num⟩
    norm_num at this ⊢; linarith
  have hb : 3.07e-5 ≤ |(JFun.sqrt A).val| := by
    show _ ≤ |F.rd (Real.sqrt A.val)|
    refine le_trans ?_ (rd_abs_ge hF _)
    rw [abs_of_nonneg (Real.sqrt_nonneg _)]
    have : 3.08e-5 ≤ Real.sqrt A.val := Real.le_sqrt_of_sq_le (by norm_num at hA ⊢; linarith)
    norm_num at this ⊢; linarith
  have ty := (tb.mul hF tx (by norm_num at h1 ⊢; linarith)).mono (M := 4.1e13) (by norm_num)
  have tc := ty.cos hF hΩ3
  have ts := ty.sin hF hΩ3
  have t1 := Tr.lit (n := 1) hF hΩ3 (by norm_num)
  refine ⟨?_, ?_, ?_, ?_⟩
  · simp only [ufunc0, l1, l2, if_true]; exact tc
  · simp only [ufunc1, l1, l2, if_true]
    exact (ts.div hF tb (by norm_num) hb (by norm_num at h1 ⊢; linarith)).mono (by norm_num)
  · simp only [ufunc2, l1, l2, if_true]
    exact ((t1.sub hF tc (by norm_num at h1 ⊢; linarith)).div hF ta (by norm_num) hAa (by norm_num at h1 ⊢; linarith)).mono
      (by norm_num)
  · simp only [ufunc3, l1, l2, if_true]
    exact (((ty.sub hF ts (by norm_num at h1 ⊢; linarith)).div hF ta (by norm_num) hAa
      (by norm_num at h1 ⊢; linarith)).div hF tb (by norm_num) hb (by norm_num at h1 ⊢; linarith)).mono (by norm_num)

/-- Residual and slope. -/
theorem uni_tr {a x ρ s m τ : Fl F Ω} {A X R σ mu t : Rnd F} (ta : Tr 1.02e6 a A) (hA : 9.5e-10 ≤ A.val) (tx : Tr 4e10 x X)
    (tr : Tr 2.5e9 ρ R) (tσ : Tr 3.4e4 s σ) (tm : Tr 1.01e8 (JFun.sqrt m) (JFun.sqrt mu)) (tt : Tr 3.3e22 τ t) :
    Tr 4e30 (kepler_equ_uni x a ρ s τ m) (kepler_equ_uni X A R σ t mu) ∧ Tr 7e9 (dchi x a ρ s) (dchi X A R σ) := by
  obtain ⟨u0, u1, u2, u3⟩ := ufunc_tr hF h1 ta hA tx
  have p1 := (tr.mul hF u1 (by norm_num at h1 ⊢; linarith)).mono (M := 9.3e13) (by norm_num)
  have p2 := (tσ.mul hF u2 (by norm_num at h1 ⊢; linarith)).mono (M := 7.9e13) (by norm_num)
  have p4 := (tm.mul hF tt (by norm_num at h1 ⊢; linarith)).mono (M := 3.4e30) (by norm_num)
  have q0 := (tr.mul hF u0 (by norm_num at h1 ⊢; linarith)).mono (M := 2.9e9) (by norm_num)
  have q1 := (tσ.mul hF u1 (by norm_num at h1 ⊢; linarith)).mono (M := 1.3e9) (by norm_num)
  constructor
  · exact (((p1.add hF p2 (by norm_num at h1 ⊢; linarith)).add hF u3 (by norm_num at h1 ⊢; linarith)).sub hF p4
      (by norm_num at h1 ⊢; linarith)).mono (by norm_num)
  · exact ((q0.add hF q1 (by norm_num at h1 ⊢; linarith)).add hF u2 (by norm_num at h1 ⊢; linarith)).mono (by norm_num)

/-- A linear combination of two vectors. -/
theorem TrV.comb {c d : Fl F Ω} {C D : Rnd F} {p q : V3 (Fl F Ω)} {p' q' : V3 (Rnd F)} (tc : Tr 8e24 c C) (td : Tr 2e17 d D)
    (tp : TrV 1.25e9 p p') (tq : TrV 1.3e11 q q') : TrV 2e34 (c • p + d • q) (C • p' + D • q') := by
  have f : ∀ {x y : Fl F Ω} {x' y' : Rnd F}, Tr 1.25e9 x x' → Tr 1.3e11 y y' → Tr 2e34 (c * x + d * y) (C * x' + D * y') := by
    intro x y x' y' hx hy
    have a1 := (tc.mul hF hx (by norm_num at h1 ⊢; linarith)).mono (M := 1.1e34) (by norm_num)
    have a2 := (td.mul hF hy (by norm_num at h1 ⊢; linarith)).mono (M := 2.7e28) (by norm_num)
    exact (a1.add hF a2 (by norm_num at h1 ⊢; linarith)).mono (by norm_num)
  exact ⟨f tp.x tq.x, f tp.y tq.y, f tp.z tq.z⟩

/-- The step after the root search. -/
theorem step_tr {a x ρ s m : Fl F Ω} {A X R σ mu : Rnd F} {p q : V3 (Fl F Ω)} {p' q' : V3 (Rnd F)}
    (ta : Tr 1.02e6 a A) (hA : 9.5e-10 ≤ A.val) (tx : Tr 4e10 x X)
    (tr : Tr 2.5e9 ρ R) (hR : 7.4e-7 ≤ |R.val|) (tσ : Tr 3.4e4 s σ)
    (tm : Tr 1.01e8 (JFun.sqrt m) (JFun.sqrt mu)) (hm : 9.9e-4 ≤ |(JFun.sqrt mu).val|)
    (hd : 7e-7 ≤ |(dchi X A R σ).val|) (tp : TrV 1.25e9 p p') (tq : TrV 1.3e11 q q') :
    TrV 2e34 (keplerStep x a ρ s p q m).1 (keplerStep X A R σ p' q' mu).1 ∧
    TrV 2e34 (keplerStep x a ρ s p q m).2 (keplerStep X A R σ p' q' mu).2 := by
  have hΩ3 : 1000 ≤ Ω := by norm_num at h1; linarith
  obtain ⟨u0, u1, u2, u3⟩ := ufunc_tr hF h1 ta hA tx
  have t1 := Tr.lit (n := 1) hF hΩ3 (by norm_num)
  have p1 := (tr.mul hF u1 (by norm_num at h1 ⊢; linarith)).mono (M := 9.3e13) (by norm_num)
  have p2 := (tσ.mul hF u2 (by norm_num at h1 ⊢; linarith)).mono (M := 7.9e13) (by norm_num)
  have q0 := (tr.mul hF u0 (by norm_num at h1 ⊢; linarith)).mono (M := 2.9e9) (by norm_num)
  have q1 := (tσ.mul hF u1 (by norm_num at h1 ⊢; linarith)).mono (M := 1.3e9) (by norm_num)
  have td : Tr 7e9 (equ_of_orb_uvi (ufunc0 x a) (ufunc1 x a) (ufunc2 x a) ρ s)
      (equ_of_orb_uvi (ufunc0 X A) (ufunc1 X A) (ufunc2 X A) R σ) :=
    ((q0.add hF q1 (by norm_num at h1 ⊢; linarith)).add hF u2 (by norm_num at h1 ⊢; linarith)).mono (by norm_num)
  have tF := (t1.sub hF (u2.div hF tr (by norm_num) hR (by norm_num at h1 ⊢; linarith)) (by norm_num at h1 ⊢; linarith)).mono
    (M := 8e24) (by norm_num)
  have tG := ((p1.add hF p2 (by norm_num at h1 ⊢; linarith)).div hF tm (by norm_num) hm (by norm_num at h1 ⊢; linarith)).mono
    (M := 2e17) (by norm_num)
  have tFt := (((tm.neg.div hF td (by norm_num) hd (by norm_num at h1 ⊢; linarith)).mul hF u1
    (by norm_num at h1 ⊢; linarith)).div hF tr (by norm_num) hR (by norm_num at h1 ⊢; linarith)).mono
    (M := 8e24) (by norm_num)
  have tGt := (t1.sub hF (u2.div hF td (by norm_num) hd (by norm_num at h1 ⊢; linarith)) (by norm_num at h1 ⊢; linarith)).mono
    (M := 2e17) (by norm_num)
  exact ⟨TrV.comb hF h1 tF tG tp tq, TrV.comb hF h1 tFt tGt tp tq⟩

end

section
variable (hF : StdModel F u L) (h1 : 3e38 ≤ Ω) (S : Sized r v mu t) (hN : lossN L (advance r v mu t) * u ≤ 1 / 2000)
include hF S hN

/-- The slope is bounded away from zero at a point of small residual. -/
theorem dchi_low {chi : Rnd F} (hχ : |resN r v mu t chi.val| ≤ 51 / 100) :
    7e-7 ≤ |(dchi chi (alphaR r v mu) (V3.norm r) (sigma_fn r v mu)).val| := by
  have hw := (uni_eval hF S.mu0 S.hh S.α0 S.he hN chi hχ).2
  have h := within_abs_ge hF hw
  have hq := (qOf_le_radOf S.mu0 S.hh chi.val).trans (le_abs_self _)
  obtain ⟨-, -, -, -, -, -, -, -, -, -, hq0⟩ := S.sizes
  have h2 : 0.99 * |radOf r.re v.re mu.val chi.val| ≤ (1 - 1.01 * ((lossN L (advance r v mu t) - 1) * u))
      * |radOf r.re v.re mu.val chi.val| := by
    refine mul_le_mul_of_nonneg_right ?_ (abs_nonneg _)
    have := hF.u_pos
    norm_num; linarith
  norm_num at h2 h hq0 ⊢
  linarith

omit hF hN in
theorem chi_le {chi : Rnd F} (hχ : |resN r v mu t chi.val| ≤ 51 / 100) : |chi.val| ≤ 4e10 := by
  have h := chi_of_res S.mu0 S.hh S.α0 S.he hχ
  have hT := S.T
  obtain ⟨hb, -⟩ := S.sizes
  have : 3.1e-5 * |chi.val| ≤ Real.sqrt (alphaOf r.re v.re mu.val) * |chi.val| :=
    mul_le_mul_of_nonneg_right hb (abs_nonneg _)
  norm_num at this hT ⊢
  linarith

/-- Every iterate has a small residual. -/
theorem res_iter (k : ℕ) :
    |resN r v mu t ((newtonUni t (alphaR r v mu) (V3.norm r) (sigma_fn r v mu) mu)^[k] (uniStart t (alphaR r v mu) mu)).val|
      ≤ 51 / 100 := by
  induction k with
  | zero => exact uni_start_rnd hF S.mu0 S.hh S.α0 S.he hN
  | succ k ih =>
    rw [Function.iterate_succ_apply']
    refine (uni_step_rnd hF S.mu0 S.hh S.α0 S.he hN _ ih le_rfl).trans ?_
    have := (lossN_le hF (advance_nonneg (t := t) S.α0) hN).2.1
    norm_num; linarith

include h1

/-- C69, root search: the iterates are those of the arithmetic without overflow. -/
theorem uni_transfer {tol : Rnd F} {n : ℕ} (ht : |tol.val| ≤ 1) :
    ∃ chi, solve_kepler_uni t (alphaR r v mu) (V3.norm r) (sigma_fn r v mu) mu tol n = some chi ∧
      |resN r v mu t chi.val| ≤ 51 / 100 ∧
      solve_kepler_uni (fin t.val) (((1 : ℕ) : Fl F Ω) / semimajor_axis (V3.norm (finVec r.re : V3 (Fl F Ω)))
        (V3.norm (finVec v.re : V3 (Fl F Ω))) (fin mu.val)) (V3.norm (finVec r.re : V3 (Fl F Ω)))
        (sigma_fn (finVec r.re) (finVec v.re) (fin mu.val : Fl F Ω)) (fin mu.val) (fin tol.val) n = some (fin chi.val) := by
  obtain ⟨ta, hA⟩ := tr_alpha hF h1 S hN
  obtain ⟨tr, hR⟩ := tr_norm hF h1 S
  obtain ⟨tm, hm⟩ := tr_sqrt_mu hF h1 S
  have tσ := tr_sigma hF h1 S hN
  have tt : Tr 3.3e22 (fin t.val : Fl F Ω) t := tr_t S
  have tl : Tr 1 (fin tol.val : Fl F Ω) tol := .fin' ht
  generalize ((1 : ℕ) : Fl F Ω) / semimajor_axis (V3.norm (finVec r.re : V3 (Fl F Ω)))
        (V3.norm (finVec v.re : V3 (Fl F Ω))) (fin mu.val) = a at *
  generalize V3.norm (finVec r.re : V3 (Fl F Ω)) = ρ at *
  generalize sigma_fn (finVec r.re) (finVec v.re) (fin mu.val : Fl F Ω) = s at *
  have hres := res_iter hF S hN
  have key : ∀ k, Tr 4e10 ((newtonUni (fin t.val) a ρ s (fin mu.val))^[k] (uniStart (fin t.val) a (fin mu.val)))
      ((newtonUni t (alphaR r v mu) (V3.norm r) (sigma_fn r v mu) mu)^[k] (uniStart t (alphaR r v mu) mu)) := by
    intro k
    induction k with
    | zero =>
      have h0 := ((tm.mul hF ta.abs (by norm_num at h1 ⊢; linarith)).mul hF tt (by norm_num at h1 ⊢; linarith))
      exact h0.of_le (chi_le S (hres 0))
    | succ k ih =>
      have hc := chi_le S (hres (k + 1))
      have hd := dchi_low hF S hN (hres k)
      rw [Function.iterate_succ_apply'] at hc ⊢
      rw [Function.iterate_succ_apply']
      obtain ⟨k1, k2⟩ := uni_tr hF h1 ta hA ih tr tσ tm tt
      have q := k1.div hF k2 (by norm_num) hd (by norm_num at h1 ⊢; linarith)
      exact (ih.sub hF q (by norm_num at h1 ⊢; linarith)).of_le hc
  have test : ∀ k, JFun.lt (fin tol.val) (JFun.abs (kepler_equ_uni
        ((newtonUni (fin t.val) a ρ s (fin mu.val))^[k] (uniStart (fin t.val) a (fin mu.val))) a ρ s (fin t.val) (fin mu.val)))
      = JFun.lt tol (JFun.abs (kepler_equ_uni ((newtonUni t (alphaR r v mu) (V3.norm r) (sigma_fn r v mu) mu)^[k]
        (uniStart t (alphaR r v mu) mu)) (alphaR r v mu) (V3.norm r) (sigma_fn r v mu) t mu)) := fun k =>
    tl.lt (uni_tr hF h1 ta hA (key k) tr tσ tm tt).1.abs
  obtain ⟨k1, hk1, -, e1, p1, q1⟩ := C13_uni (fin t.val) a ρ s (fin mu.val) (fin tol.val : Fl F Ω) n
  obtain ⟨k2, hk2, -, e2, p2, q2⟩ := C13_uni t (alphaR r v mu) (V3.norm r) (sigma_fn r v mu) mu tol n
  have hk : k1 = k2 := by
    rcases lt_trichotomy k1 k2 with h | h | h
    · have a1 := q1 (by omega)
      have a2 := p2 k1 h
      rw [test k1, a2] at a1; cases a1
    · exact h
    · have a1 := q2 (by omega)
      have a2 := p1 k2 h
      rw [test k2, a1] at a2; cases a2
  subst hk
  exact ⟨_, e2, hres k1, by rw [e1, (key k1).eq]⟩

/-- C69, `kepler` below overflow: for a state of ordinary size on an ellipse of eccentricity at most 1/4 every component is
the finite number of the arithmetic without overflow. -/
theorem C69_kepler_transfer {R V : V3 (Rnd F)} (hk : kepler [t] r v mu = some ([R], [V])) :
    kepler [fin t.val] (finVec r.re) (finVec v.re) (fin mu.val : Fl F Ω) = some ([finVec R.re], [finVec V.re]) := by
  have htol : |(defaultTol : Rnd F).val| ≤ 1 := by
    have e : (defaultTol : Rnd F).val = F.rd (F.rd (1 : ℕ) / F.rd (1000000 : ℕ)) := rfl
    have h2 := rd_abs_ge hF (1000000 : ℕ)
    rw [Nat.abs_cast] at h2
    rw [e, hF.lit 1 (by norm_num)]
    refine (rd_le hF _).trans ?_
    rw [abs_div, Nat.cast_one, abs_one]
    have h3 : 1 / |F.rd (1000000 : ℕ)| ≤ 1 / 2 := one_div_le_one_div_of_le (by norm_num) (le_trans (by norm_num) h2)
    norm_num at h3 ⊢
    linarith
  obtain ⟨chi, e1, hres, e2⟩ := uni_transfer hF h1 S hN (tol := defaultTol) (n := 50) htol
  rw [← tol_fin hF (by norm_num at h1 ⊢; linarith)] at e2
  obtain ⟨ta, hA⟩ := tr_alpha hF h1 S hN
  obtain ⟨tr, hR⟩ := tr_norm hF h1 S
  obtain ⟨tm, hm⟩ := tr_sqrt_mu hF h1 S
  have tσ := tr_sigma hF h1 S hN
  obtain ⟨s1, s2⟩ := step_tr hF h1 ta hA (Tr.fin' (chi_le S hres)) tr hR tσ tm hm (dchi_low hF S hN hres) (tr_pos S)
    (tr_vel S)
  rw [kepler_eq_map] at hk ⊢
  have r1 : keplerRow r v mu t
      = keplerStep chi (alphaR r v mu) (V3.norm r) (sigma_fn r v mu) r v mu := by
    have := (solve_eq_chiOf t (alphaR r v mu) (V3.norm r) (sigma_fn r v mu) mu).symm.trans e1
    rw [← Option.some.inj this]; rfl
  have r2 : keplerRow (finVec r.re) (finVec v.re) (fin mu.val : Fl F Ω) (fin t.val)
      = keplerStep (fin chi.val) (((1 : ℕ) : Fl F Ω) / semimajor_axis (V3.norm (finVec r.re : V3 (Fl F Ω)))
        (V3.norm (finVec v.re : V3 (Fl F Ω))) (fin mu.val)) (V3.norm (finVec r.re : V3 (Fl F Ω)))
        (sigma_fn (finVec r.re) (finVec v.re) (fin mu.val : Fl F Ω)) (finVec r.re) (finVec v.re) (fin mu.val) := by
    have := (solve_eq_chiOf _ _ _ _ _).symm.trans e2
    rw [← Option.some.inj this]; rfl
  simp only [List.map_cons, List.map_nil, Option.some.injEq, Prod.mk.injEq, List.cons.injEq, and_true] at hk ⊢
  obtain ⟨rfl, rfl⟩ := hk
  rw [r1, r2]
  exact ⟨V3.ext s1.x.eq s1.y.eq s1.z.eq, V3.ext s2.x.eq s2.y.eq s2.z.eq⟩

end

/-- C69 with C68: `kepler` in binary64, overflow included, with its default settings. -/
theorem C69_kepler_ellipse_bin64 {r v : V3 ℝ} {mu t : ℝ} (hmu : 1e-6 ≤ mu) (hmu' : mu ≤ 1e16)
    (hh : angular_momentum r v ≠ ⟨0, 0, 0⟩) (hα : 1 / 50 ≤ alphaOf r v mu) (hα' : alphaOf r v mu ≤ 1e6)
    (he : eOf r v mu ≤ 1 / 4)
    (hT : alphaOf r v mu * Real.sqrt (alphaOf r v mu) * (Real.sqrt mu * |t|) ≤ 1000) :
    let α := alphaOf r v mu
    let εp := 1.61e-6 * Real.sqrt α
    let εv := 2.1e-6 * (Real.sqrt mu * α ^ 2) + 8.1e-7 * (Real.sqrt mu * Real.sqrt α)
    let X := exactProp r v mu t
    ∃ R V : V3 ℝ, kepler [fin t] (finVec r) (finVec v) (fin mu : Bin64) = some ([finVec R], [finVec V]) ∧
      |R.x - X.1.x| ≤ εp ∧ |R.y - X.1.y| ≤ εp ∧ |R.z - X.1.z| ≤ εp ∧
      |V.x - X.2.x| ≤ εv ∧ |V.y - X.2.y| ≤ εv ∧ |V.z - X.2.z| ≤ εv := by
  intro α εp εv X
  have hmu0 : 0 < mu := lt_of_lt_of_le (by norm_num) hmu
  obtain ⟨R, V, hk, hb⟩ := C68_kepler_f64 (r := rndVec F64 r) (v := rndVec F64 v) (mu := ⟨mu⟩) (t := ⟨t⟩) hmu0 hh hα he hT
  have o1 := omega64_ge
  have S : Sized (rndVec F64 r) (rndVec F64 v) (⟨mu⟩ : Rnd F64) ⟨t⟩ :=
    ⟨hmu, hmu', hh, hα.trans' (by norm_num), hα', he, le_trans hT (by norm_num)⟩
  have hl : lossN 1 (advance (rndVec F64 r) (rndVec F64 v) (⟨mu⟩ : Rnd F64) ⟨t⟩) ≤ 1795550 := by
    have : advance (rndVec F64 r) (rndVec F64 v) (⟨mu⟩ : Rnd F64) ⟨t⟩ ≤ 1000 := hT
    unfold lossN; linarith
  refine ⟨R.re, V.re, C69_kepler_transfer stdModel_F64 (by norm_num at o1 ⊢; linarith) S ?_ hk, hb⟩
  calc _ ≤ 1795550 * 2 ^ (-53 : ℤ) := mul_le_mul_of_nonneg_right hl (by positivity)
    _ ≤ _ := by norm_num

/-- The hypotheses are met by `r = (1, 0, 0)`, `v = (0, 17/16, 0)`, `mu = 1` and every time of flight up to 1000. -/
example (t : ℝ) (ht : |t| ≤ 1000) :
    let r : V3 ℝ := ⟨1, 0, 0⟩
    let v : V3 ℝ := ⟨0, 17 / 16, 0⟩
    ∃ R V : V3 ℝ, kepler [fin t] (finVec r) (finVec v) (fin 1 : Bin64) = some ([finVec R], [finVec V]) ∧
      |R.x - (exactProp r v 1 t).1.x| ≤ 1.61e-6 := by
  intro r v
  have hr : V3.norm r = 1 := by simp [r, V3.norm, V3.dot]
  have hv : V3.norm v = 17 / 16 := by
    simp only [v, V3.norm, V3.dot, sqrt_real]
    rw [show (0 : ℝ) * 0 + 17 / 16 * (17 / 16) + 0 * 0 = (17 / 16) ^ 2 by norm_num, Real.sqrt_sq (by norm_num)]
  have hα : alphaOf r v 1 = 223 / 256 := by rw [alphaOf, hr, hv]; norm_num [semimajor_axis]
  have he : eOf r v 1 = 33 / 256 := by
    have : eccentricity_vector r v 1 = ⟨33 / 256, 0, 0⟩ := by
      ext <;> simp [eccentricity_vector, hr, angular_momentum] <;> norm_num [r, v]
    rw [eOf, this]
    simp only [V3.norm, V3.dot, sqrt_real]
    rw [show (33 / 256 : ℝ) * (33 / 256) + 0 * 0 + 0 * 0 = (33 / 256) ^ 2 by norm_num, Real.sqrt_sq (by norm_num)]
  have hs : Real.sqrt (223 / 256) ≤ 1 := Real.sqrt_le_one.2 (by norm_num)
  obtain ⟨R, V, hk, hx, -⟩ := C69_kepler_ellipse_bin64 (r := r) (v := v) (mu := 1) (t := t) (by norm_num) (by norm_num)
    (by simp [r, v, angular_momentum, cross]) (by rw [hα]; norm_num) (by rw [hα]; norm_num) (by rw [he]; norm_num) (by
      rw [hα, Real.sqrt_one, one_mul]
      have := abs_nonneg t
      have := Real.sqrt_nonneg (223 / 256)
      calc (223 / 256 : ℝ) * Real.sqrt (223 / 256) * |t| ≤ 1 * 1 * 1000 := by gcongr; norm_num
        _ = 1000 := by norm_num)
  refine ⟨R, V, hk, hx.trans ?_⟩
  rw [hα]
  norm_num at hs ⊢
  linarith

end Adx
