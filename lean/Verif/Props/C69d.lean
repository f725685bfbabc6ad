import Verif.Lemmas.FlTransfer
import Verif.Props.C68e
import Verif.Props.C69c

/-!
# C69, part 4: where nothing overflows

`solve_kepler_elps` for `e ≤ 1/2` never overflows on ordinary inputs, so that it returns the number it returns in the arithmetic
without overflow and the error bounds of C68 apply. `orb_period` overflows in `a**3`.
-/

namespace Adx
open Spec Fl

variable {F : Fp} {Ω u L : ℝ}

section
variable (hF : StdModel F u L)
include hF

theorem exp_L_le : Real.exp (L * eta u) ≤ 1.12 := by
  have hLu : L * eta u ≤ 0.1002 := by
    have h1 := eta_le_small hF
    have h2 := hF.le_hundred
    have h3 := hF.u_small
    have h4 := hF.u_pos
    have h5 := hF.eta0
    calc L * eta u ≤ 100 * (1.002 * (1 / 1000)) := by
          refine mul_le_mul h2 (h1.trans ?_) h5.le (by norm_num)
          norm_num; linarith
      _ = _ := by norm_num
  have h3 := Real.add_one_le_exp (-(L * eta u))
  rw [Real.exp_neg] at h3
  have h5 : Real.exp (L * eta u) ≤ (1 - L * eta u)⁻¹ := by
    rw [le_inv_comm₀ (Real.exp_pos _) (by norm_num at hLu; linarith)]; linarith
  refine h5.trans ?_
  rw [inv_le_comm₀ (by norm_num at hLu; linarith) (by norm_num)]
  norm_num at hLu ⊢; linarith

theorem within_L_le {x y : ℝ} (h : Within u L x y) (hy : |y| ≤ 1) : |x| ≤ 1.12 := by
  obtain ⟨θ, hθ, rfl⟩ := h
  rw [abs_mul, abs_of_pos (Real.exp_pos _)]
  have h1 : Real.exp θ ≤ 1.12 := (Real.exp_le_exp.2 ((le_abs_self _).trans hθ)).trans (exp_L_le hF)
  have h2 := Real.exp_pos θ
  have h3 := abs_nonneg y
  nlinarith

variable {a : Fl F Ω} {x : Rnd F} {K : ℝ}

theorem Fl.Tr.sin (h : Tr K a x) (hΩ : 1000 ≤ Ω) : Tr 1.12 (JFun.sin a) (JFun.sin x) := by
  have h1 : |F.sin x.val| ≤ 1.12 := within_L_le hF (hF.sin _) (Real.abs_sin_le_one _)
  refine ⟨?_, h1⟩
  rw [h.eq]; exact sin_fin (h1.trans (by norm_num; linarith))

theorem Fl.Tr.cos (h : Tr K a x) (hΩ : 1000 ≤ Ω) : Tr 1.12 (JFun.cos a) (JFun.cos x) := by
  have h1 : |F.cos x.val| ≤ 1.12 := within_L_le hF (hF.cos _) (Real.abs_cos_le_one _)
  refine ⟨?_, h1⟩
  rw [h.eq]; exact cos_fin (h1.trans (by norm_num; linarith))

variable {M e tol : Rnd F}

/-- One step from a bounded iterate. -/
theorem elps_step_tr (he : |e.val| ≤ 1 / 2) {B : ℝ} (hB : 2 ≤ B) (hMB : |M.val| ≤ B) (hΩ : 1000 * B ≤ Ω) {a : Fl F Ω}
    {E : Rnd F} (h : Tr B a E) : Tr (7 * B) (newtonElps (fin M.val) (fin e.val) a) (newtonElps M e E) := by
  have hΩ3 : 1000 ≤ Ω := by linarith
  have te : Tr (1 / 2) (fin e.val : Fl F Ω) e := .fin' he
  have tM : Tr B (fin M.val : Fl F Ω) M := .fin' hMB
  have t1 := (te.mul hF (h.sin hF hΩ3) (by norm_num; linarith)).mono (M := 0.6) (by norm_num)
  have t2 := (h.sub hF t1 (by norm_num; linarith)).mono (M := 1.31 * B) (by norm_num; linarith)
  have t3 := (t2.sub hF tM (by norm_num; linarith)).mono (M := 2.32 * B) (by norm_num; linarith)
  have t4 := (te.mul hF (h.cos hF hΩ3) (by norm_num; linarith)).mono (M := 0.561) (by norm_num)
  have t5 := ((Tr.lit (n := 1) hF hΩ3 (by norm_num)).sub hF t4 (by norm_num; linarith))
  have hlow : 0.43 ≤ |(((1 : ℕ) : Rnd F) - e * JFun.cos E).val| := by
    have e1 : (((1 : ℕ) : Rnd F) - e * JFun.cos E).val = F.rd (F.rd (1 : ℕ) - (e * JFun.cos E).val) := rfl
    rw [e1, hF.lit 1 (by norm_num)]
    have h2 := (abs_le.1 t4.le).2
    refine le_trans ?_ (le_abs_self _)
    refine le_trans ?_ (rd_ge hF (x := ((1 : ℕ) : ℝ) - (e * JFun.cos E).val) ?_)
    · norm_num at h2 ⊢; linarith
    · norm_num at h2 ⊢; linarith
  have t6 := (t3.div hF t5 (m := 0.43) (by norm_num) hlow (by norm_num; linarith)).mono (M := 5.41 * B)
    (by norm_num; linarith)
  exact (h.sub hF t6 (by norm_num; linarith)).mono (by norm_num; linarith)

theorem elps_start_tr (he : |e.val| ≤ 1 / 2) (hΩ : 1000 * (2 * |M.val| + 6) ≤ Ω) :
    Tr (2 * |M.val| + 6) (elpsStart (fin M.val : Fl F Ω) (fin e.val)) (elpsStart M e) := by
  have hM := abs_nonneg M.val
  have hΩ3 : 1000 ≤ Ω := by linarith
  have te : Tr (1 / 2) (fin e.val : Fl F Ω) e := .fin' he
  have tM : Tr |M.val| (fin M.val : Fl F Ω) M := .fin' le_rfl
  have t1 := (te.mul hF (tM.sin hF hΩ3) (by norm_num; linarith)).mono (M := 0.6) (by norm_num)
  have t2 := (tM.add hF t1 (by norm_num; linarith)).mono (M := 1.1 * |M.val| + 1) (by norm_num; linarith)
  have t3 : Tr 0.3 ((fin e.val : Fl F Ω) ^ 2) (e ^ 2) := (te.mul hF te (by norm_num; linarith)).mono (by norm_num)
  have l2 := Tr.lit (n := 2) hF hΩ3 (by norm_num)
  have t4 := l2.mul hF tM (by norm_num; linarith)
  have t5 := (t3.mul hF (t4.sin hF hΩ3) (by norm_num; linarith)).mono (M := 0.4) (by norm_num)
  have t6 := (t5.div hF l2 (m := 2) (by norm_num) (by
    show 2 ≤ |F.rd (2 : ℕ)|; rw [hF.lit 2 (by norm_num)]; norm_num) (by norm_num; linarith)).mono (M := 0.3) (by norm_num)
  exact (t2.add hF t6 (by norm_num; linarith)).mono (by norm_num; linarith)

/-- C69, no overflow: for `e ≤ 1/2` the elliptic solver returns the finite number of the arithmetic without overflow. -/
theorem C69_elps_transfer (he : |e.val| ≤ 1 / 2) (ht : |tol.val| ≤ 1) {n : ℕ}
    (hΩ : 1000 * (7 ^ n * (2 * |M.val| + 6)) ≤ Ω) :
    solve_kepler_elps (fin M.val : Fl F Ω) (fin e.val) (fin tol.val) n
      = (solve_kepler_elps M e tol n).map fun E => fin E.val := by
  have hM := abs_nonneg M.val
  have hpow : ∀ k, (1 : ℝ) ≤ 7 ^ k := fun k => one_le_pow₀ (by norm_num)
  have hle : ∀ k ≤ n, 1000 * (7 ^ k * (2 * |M.val| + 6)) ≤ Ω := fun k hk => by
    refine le_trans ?_ hΩ
    have : (7 : ℝ) ^ k ≤ 7 ^ n := pow_le_pow_right₀ (by norm_num) hk
    gcongr
  have h0 : 1000 * (2 * |M.val| + 6) ≤ Ω := by have := hle 0 (Nat.zero_le _); simpa using this
  have hΩ3 : 1000 ≤ Ω := by linarith
  have tt : Tr 1 (fin tol.val : Fl F Ω) tol := .fin' ht
  -- iterates
  have key : ∀ k ≤ n, Tr (7 ^ k * (2 * |M.val| + 6))
      ((newtonElps (fin M.val : Fl F Ω) (fin e.val))^[k] (elpsStart (fin M.val) (fin e.val)))
      ((newtonElps M e)^[k] (elpsStart M e)) := by
    intro k
    induction k with
    | zero => intro _; simpa using elps_start_tr hF he h0
    | succ k ih =>
      intro hk
      rw [Function.iterate_succ_apply', Function.iterate_succ_apply']
      have h1 := hpow k
      refine (elps_step_tr hF he ?_ ?_ (hle k (by omega)) (ih (by omega))).mono (by rw [pow_succ]; nlinarith)
      · nlinarith
      · nlinarith
  -- tests
  have test : ∀ k ≤ n, JFun.lt (fin tol.val) (JFun.abs
        ((newtonElps (fin M.val : Fl F Ω) (fin e.val))^[k] (elpsStart (fin M.val) (fin e.val))
        - prevOf (newtonElps (fin M.val : Fl F Ω) (fin e.val)) (elpsStart (fin M.val) (fin e.val))
          (elpsStart (fin M.val) (fin e.val) + ℓ 2 * fin tol.val) k))
      = JFun.lt tol (JFun.abs ((newtonElps M e)^[k] (elpsStart M e)
        - prevOf (newtonElps M e) (elpsStart M e) (elpsStart M e + ℓ 2 * tol) k)) := by
    intro k hk
    rcases k with _ | k
    · have t0 := elps_start_tr hF he h0 (Ω := Ω)
      have t1 := ((Tr.lit (n := 2) hF hΩ3 (by norm_num)).mul hF tt (by norm_num; linarith)).mono (M := 3) (by norm_num)
      have t2 := (t0.add hF t1 (by norm_num; linarith)).mono (M := 4 * |M.val| + 12) (by norm_num; linarith)
      exact tt.lt (t0.sub hF t2 (by norm_num; linarith)).abs
    · have a1 := key (k + 1) hk
      have a2 := (key k (by omega)).mono (M := 7 ^ (k + 1) * (2 * |M.val| + 6)) (by
        have h1 := hpow k
        rw [pow_succ]; nlinarith)
      have h2 := hle (k + 1) hk
      exact tt.lt (a1.sub hF a2 (by
        have h3 := a1.nonneg
        norm_num; linarith)).abs
  obtain ⟨k1, hk1, -, e1, p1, q1⟩ := C13_elps (fin M.val : Fl F Ω) (fin e.val) (fin tol.val) n
  obtain ⟨k2, hk2, -, e2, p2, q2⟩ := C13_elps M e tol n
  have hk : k1 = k2 := by
    rcases lt_trichotomy k1 k2 with h | h | h
    · have a1 := q1 (by omega)
      have a2 := p2 k1 h
      rw [test k1 hk1, a2] at a1; cases a1
    · exact h
    · have a1 := q2 (by omega)
      have a2 := p1 k2 h
      rw [test k2 hk2, a1] at a2; cases a2
  subst hk
  rw [e1, e2, Option.map_some, (key k1 hk1).eq]

end

/-- C69 with C68: `solve_kepler_elps` in binary64, overflow included, default settings. -/
theorem C69_elps_bin64 {M e : ℝ} (h0 : 0 ≤ e) (h1 : e ≤ 1 / 2) (hM : |M| ≤ 1000) :
    ∃ E, solve_kepler_elps (fin M : Bin64) (fin e) = some (fin E) ∧
      ∀ Es, kepler_equ_elps Es e M = 0 → |E - Es| ≤ 2e-11 := by
  obtain ⟨E, hE, hb⟩ := C68_elps_f64 (M := ⟨M⟩) (e := ⟨e⟩) h0 h1 hM
  have o1 := omega64_ge
  refine ⟨E.val, ?_, hb⟩
  rw [tol_fin stdModel_F64 (by norm_num at o1; linarith)]
  have ht := abs_le.1 tol64
  have := C69_elps_transfer (Ω := omega64) stdModel_F64 (M := ⟨M⟩) (e := ⟨e⟩) (tol := defaultTol) (n := 20)
    (by show |e| ≤ _; rwa [abs_of_nonneg h0]) (by rw [abs_le]; norm_num at ht ⊢; constructor <;> linarith)
    (by
      show 1000 * (7 ^ 20 * (2 * |M| + 6)) ≤ _
      norm_num at o1 ⊢; linarith)
  rw [this, hE]; rfl

/-- C69, `orb_period`: the cube overflows, the period is infinite (`a ≥ 7e12` in metres in binary32, 47 AU). -/
theorem C69_orb_period_inf (hF : StdModel F u L) (h1 : 3e38 ≤ Ω) (h2 : Ω ≤ 4e38) {a mu : ℝ} (ha : 7.4e12 ≤ a) (hmu : 0 < mu) :
    orb_period (fin a) (fin mu : Fl F Ω) = pinf := by
  have hΩ : 0 ≤ Ω := by norm_num at h1; linarith
  have hΩ3 : 1000 ≤ Ω := by norm_num at h1; linarith
  have ha0 : 0 < a := lt_of_lt_of_le (by norm_num) ha
  have ep : (fin a : Fl F Ω) ^ 3 = pinf := pow_overflow hF ha0 hΩ 1 (by
    calc Ω ≤ 4e38 := h2
      _ < (0.999 * 7.4e12) ^ 3 := by norm_num
      _ ≤ _ := by gcongr)
  have hpi : |F.rd Real.pi| ≤ 4 := by
    refine (rd_le hF _).trans ?_
    rw [abs_of_pos Real.pi_pos]
    have := Real.pi_lt_d2
    norm_num at this ⊢; linarith
  have tpi : Tr 4 (JFun.pi : Fl F Ω) (JFun.pi : Rnd F) := ⟨ext (clip_le (hpi.trans (by linarith))), hpi⟩
  have t2 := (Tr.lit (n := 2) hF hΩ3 (by norm_num)).mul hF tpi (by norm_num; linarith)
  have hpos : 0 < (((2 : ℕ) : Rnd F) * JFun.pi).val :=
    ((Within.lit hF 2 (by norm_num)).mul hF (Within.pi hF)).pos_iff.2 (by positivity)
  simp only [orb_period, ep, pinf_div_pos hmu, sqrt_pinf]
  rw [t2.eq, pos_mul_pinf hpos]

/-- A semimajor axis of 49.5 AU, in metres. -/
example : orb_period (fin 7.4e12) (fin 1.32712440018e20 : Bin32) = pinf :=
  C69_orb_period_inf (stdModel_FB 24 (by norm_num)) omega32_bounds.1 omega32_bounds.2 le_rfl (by norm_num)

end Adx
