import Verif.Props.C10
import Verif.Props.C18b
import Verif.Lemmas.NewtonConvex

/-! # C18, continued: hyperbolas down to eccentricity 1.0005

For `0 ≤ N` Newton's iterates from the first step on lie right of the root. If the starting value is already
right of it, it is so by at most `log 2`. Otherwise the first step overshoots, at this eccentricity by less than 16,
and the iterates come down by a definite amount per step until they are below 2.9. -/

namespace Adx
open Set

/-! ### elementary inequalities -/

theorem exp_ge_of_pow {p q : ℕ} {x c : ℝ} (hx : x * q = p) (hq : q ≠ 0) (h : c ^ q ≤ 2.718 ^ p) :
    c ≤ Real.exp x := by
  by_contra hlt
  push Not at hlt
  have h1 : Real.exp x ^ q < c ^ q := pow_lt_pow_left₀ hlt (Real.exp_pos x).le hq
  have h2 : Real.exp x ^ q = Real.exp 1 ^ p := by
    rw [← Real.exp_nat_mul, ← Real.exp_nat_mul, mul_comm, hx, mul_one]
  have h3 : (2.718 : ℝ) ^ p ≤ Real.exp 1 ^ p :=
    pow_le_pow_left₀ (by norm_num) (by have := Real.exp_one_gt_d9; linarith) p
  linarith

theorem sinh_le_self_mul_cosh {x : ℝ} (hx : 0 ≤ x) : Real.sinh x ≤ x * Real.cosh x := by
  have := sinh_tangent hx le_rfl
  rw [Real.sinh_zero] at this
  linarith

theorem three_sinh {x : ℝ} (hx : 0 ≤ x) (h : x ≤ 2.9) : x * Real.cosh x ≤ 3 * Real.sinh x := by
  -- the difference is concave and nonnegative at both ends
  have d1 : ∀ s, HasDerivAt (fun s => 3 * Real.sinh s - s * Real.cosh s) (2 * Real.cosh s - s * Real.sinh s) s := fun s => by
    refine (((Real.hasDerivAt_sinh s).const_mul 3).fun_sub
      ((hasDerivAt_id' s).fun_mul (Real.hasDerivAt_cosh s))).congr_deriv ?_
    ring
  have d2 : ∀ s, HasDerivAt (fun s => s * Real.sinh s - 2 * Real.cosh s) (s * Real.cosh s - Real.sinh s) s := fun s => by
    refine (((hasDerivAt_id' s).fun_mul (Real.hasDerivAt_sinh s)).fun_sub
      ((Real.hasDerivAt_cosh s).const_mul 2)).congr_deriv ?_
    ring
  have hanti : MonotoneOn (fun s => s * Real.sinh s - 2 * Real.cosh s) (Icc 0 2.9) :=
    mono_of_deriv_nonneg d2 (fun s hs => sub_nonneg.2 (sinh_le_self_mul_cosh hs.1))
  have hc : ConcaveOn ℝ (Icc (0 : ℝ) 2.9) (fun s => 3 * Real.sinh s - s * Real.cosh s) := by
    refine AntitoneOn.concaveOn_of_deriv (convex_Icc 0 2.9)
      (continuous_iff_continuousAt.2 fun s => (d1 s).continuousAt).continuousOn
      (fun s _ => (d1 s).differentiableAt.differentiableWithinAt) ?_
    intro s hs t ht hst
    rw [interior_Icc] at hs ht
    rw [(d1 s).deriv, (d1 t).deriv]
    have := hanti ⟨hs.1.le, hs.2.le⟩ ⟨ht.1.le, ht.2.le⟩ hst
    simp only at this
    linarith
  have hend : 0 ≤ 3 * Real.sinh 2.9 - 2.9 * Real.cosh 2.9 := by
    have hE : (18 : ℝ) ≤ Real.exp 2.9 := exp_ge_of_pow (p := 29) (q := 10) (by norm_num) (by norm_num) (by norm_num)
    have hm : Real.exp (-2.9) ≤ 1 := Real.exp_le_one_iff.2 (by norm_num)
    have hm' : Real.exp (-2.9) * 18 ≤ 1 := by
      have : Real.exp (-2.9) * Real.exp 2.9 = 1 := by rw [← Real.exp_add]; norm_num
      nlinarith [Real.exp_pos (-2.9)]
    rw [Real.sinh_eq, Real.cosh_eq]
    linarith
  have h2 := hc.2 (left_mem_Icc.2 (by norm_num : (0 : ℝ) ≤ 2.9)) (right_mem_Icc.2 (by norm_num : (0 : ℝ) ≤ 2.9))
    (by linarith [(div_le_one (by norm_num : (0 : ℝ) < 2.9)).2 h] : 0 ≤ 1 - x / 2.9)
    (by positivity : 0 ≤ x / 2.9) (sub_add_cancel 1 _)
  simp only [smul_eq_mul, mul_zero, zero_add, Real.sinh_zero, zero_mul, sub_zero] at h2
  rw [div_mul_cancel₀ _ (by norm_num : (2.9 : ℝ) ≠ 0)] at h2
  have : 0 ≤ x / 2.9 * (3 * Real.sinh 2.9 - 2.9 * Real.cosh 2.9) := mul_nonneg (by positivity) hend
  linarith

theorem five_sinh {x : ℝ} (hx : 0 ≤ x) (h : x ≤ 2.9) : x * (Real.cosh x - 1) ≤ 5 * (Real.sinh x - x) := by
  have d1 : ∀ s, HasDerivAt (fun s => 4 * Real.cosh s - s * Real.sinh s) (3 * Real.sinh s - s * Real.cosh s) s := fun s => by
    refine (((Real.hasDerivAt_cosh s).const_mul 4).fun_sub
      ((hasDerivAt_id' s).fun_mul (Real.hasDerivAt_sinh s))).congr_deriv ?_
    ring
  have h1 : ∀ s ∈ Icc (0 : ℝ) 2.9, 0 ≤ 4 * Real.cosh s - s * Real.sinh s - 4 := fun s hs => by
    have := mono_of_deriv_nonneg d1 (fun s hs => sub_nonneg.2 (three_sinh hs.1 hs.2))
      (left_mem_Icc.2 (hs.1.trans hs.2)) hs hs.1
    simp only [Real.cosh_zero, zero_mul] at this
    linarith
  have d0 : ∀ s, HasDerivAt (fun s => 5 * Real.sinh s - s * Real.cosh s - 4 * s)
      (4 * Real.cosh s - s * Real.sinh s - 4) s := fun s => by
    refine ((((Real.hasDerivAt_sinh s).const_mul 5).fun_sub
      ((hasDerivAt_id' s).fun_mul (Real.hasDerivAt_cosh s))).fun_sub ((hasDerivAt_id' s).const_mul 4)).congr_deriv ?_
    ring
  have := mono_of_deriv_nonneg d0 h1 (left_mem_Icc.2 (hx.trans h)) ⟨hx, h⟩ hx
  simp only [Real.sinh_zero, zero_mul, mul_zero, sub_zero] at this
  linarith

/-- A chord of `sinh s - s` from the origin. -/
theorem sinh_chord {y x : ℝ} (h0 : 0 ≤ y) (hyx : y ≤ x) : x * (Real.sinh y - y) ≤ y * (Real.sinh x - x) := by
  rcases h0.eq_or_lt with rfl | hy
  · simp
  have hx : 0 < x := hy.trans_le hyx
  have hc : ConvexOn ℝ (Ici 0) Real.sinh := by
    refine MonotoneOn.convexOn_of_deriv (convex_Ici 0) Real.continuous_sinh.continuousOn
      Real.differentiable_sinh.differentiableOn ?_
    intro a ha b hb hab
    rw [interior_Ici] at ha hb
    rw [Real.deriv_sinh, Real.cosh_le_cosh, abs_of_pos ha, abs_of_pos hb]
    exact hab
  have h := hc.2 (mem_Ici.2 (le_refl (0 : ℝ))) (mem_Ici.2 hx.le)
    (sub_nonneg.2 ((div_le_one hx).2 hyx)) (div_nonneg h0 hx.le) (by ring)
  simp only [smul_eq_mul, Real.sinh_zero, mul_zero, zero_add] at h
  rw [div_mul_cancel₀ _ hx.ne', div_mul_eq_mul_div, le_div_iff₀ hx] at h
  linarith

/-! ### the iteration -/

theorem one_lt_of {e : ℝ} (h : 2001 / 2000 ≤ e) : 1 < e := by linarith

theorem newtonHypb_eq (N e x : ℝ) : newtonHypb N e x = newton (fun H => kepler_equ_hypb H e N) (fun H => dH H e) x := rfl

theorem hasDerivAt_dH (e s : ℝ) : HasDerivAt (fun H => dH H e) (e * Real.sinh s) s := by
  have : (fun H => dH H e) = fun H => e * Real.cosh H - 1 := by funext H; rw [dH_eq]
  rw [this]
  exact ((Real.hasDerivAt_cosh s).const_mul e).sub_const 1

theorem dH_mono {e x y : ℝ} (he : 0 ≤ e) (hx : 0 ≤ x) (hxy : x ≤ y) : dH x e ≤ dH y e := by
  rw [dH_eq, dH_eq]
  have : Real.cosh x ≤ Real.cosh y := by rw [Real.cosh_le_cosh, abs_of_nonneg hx, abs_of_nonneg (hx.trans hxy)]; exact hxy
  nlinarith

section
variable {N e a : ℝ} (he : 1 < e) (hroot : kepler_equ_hypb a e N = 0) (ha : 0 ≤ a)
include he

theorem dH_pos' (x : ℝ) : 0 < dH x e := by linarith [dH_ge (by linarith : 0 ≤ e) x]

include hroot ha

theorem hypb_right {x : ℝ} (hx : 0 ≤ x) : a ≤ newtonHypb N e x :=
  newton_ge_root (fun s => hasDerivAt_hypb s e N) hroot (dH_pos' he x)
    (fun s hs => dH_mono (by linarith) (ha.trans hs.1) hs.2)
    (fun s hs => dH_mono (by linarith) hx hs.1)

theorem hypb_resid_nonneg {x : ℝ} (hx : a ≤ x) : 0 ≤ kepler_equ_hypb x e N ∧ kepler_equ_hypb x e N ≤ dH x e * (x - a) := by
  constructor
  · have := mono_of_deriv_nonneg (fun s => hasDerivAt_hypb s e N) (fun s _ => (dH_pos' he s).le)
      (left_mem_Icc.2 hx) (right_mem_Icc.2 hx) hx
    simpa only [hroot] using this
  · have h := hypb_right he hroot ha (ha.trans hx)
    rw [newtonHypb_eq, newton] at h
    have : kepler_equ_hypb x e N / dH x e ≤ x - a := by linarith
    rw [div_le_iff₀ (dH_pos' he x)] at this
    linarith

theorem hypb_decreases {x : ℝ} (hx : a ≤ x) : newtonHypb N e x ≤ x := by
  have := div_nonneg (hypb_resid_nonneg he hroot ha hx).1 (dH_pos' he x).le
  rw [newtonHypb_eq, newton]; linarith

theorem hypb_quad (he2 : 2001 / 2000 ≤ e) {x : ℝ} (hx : a ≤ x) : newtonHypb N e x - a ≤ 16 * (x - a) ^ 2 := by
  have hq := newton_quad (f := fun H => kepler_equ_hypb H e N) (f' := fun H => dH H e) (f'' := fun s => e * Real.sinh s)
    (C := 32) (fun s => hasDerivAt_hypb s e N) (hasDerivAt_dH e) hx hroot (dH_pos' he x) (fun s hs => ?_)
  · rw [newtonHypb_eq]; linarith
  · have h1 : e * Real.sinh s ≤ e * Real.sinh x := mul_le_mul_of_nonneg_left (Real.sinh_le_sinh.2 hs.2) (by linarith)
    refine h1.trans ?_
    rw [dH_eq]
    have hcs := Real.cosh_sq x
    have hs0 : 0 ≤ Real.sinh x := Real.sinh_nonneg_iff.2 (ha.trans hx)
    have hc1 := Real.one_le_cosh x
    have hpos : 0 ≤ 32 * Real.cosh x - Real.sinh x := by linarith [Real.sinh_lt_cosh x]
    have h2 : 1023 ≤ (32 * Real.cosh x - Real.sinh x) ^ 2 := by nlinarith [sq_nonneg (Real.cosh x - 32 * Real.sinh x)]
    have h3 : 32 ^ 2 ≤ (e * (32 * Real.cosh x - Real.sinh x)) ^ 2 := by
      rw [mul_pow]
      have : (2001 / 2000) ^ 2 ≤ e ^ 2 := pow_le_pow_left₀ (by norm_num) he2 2
      nlinarith
    have := abs_le_of_sq_le_sq' h3 (mul_nonneg (by linarith) hpos)
    linarith [this.2]

/-- Linear contraction near the origin or near the root. -/
theorem hypb_lin {x : ℝ} (hx : a ≤ x) (hcase : x ≤ 2.9 ∨ Real.exp (x - a) ≤ 2) : newtonHypb N e x - a ≤ 4 / 5 * (x - a) := by
  have h := newton_lin (f := fun H => kepler_equ_hypb H e N) (f' := fun H => dH H e) (a := a) (x := x) (κ := 1 / 5)
    (dH_pos' he x) ?_
  · rw [newtonHypb_eq]; linarith
  have hx0 := ha.trans hx
  by_cases hsm : x ≤ 2.9
  · rcases hx0.eq_or_lt with hz | hxpos
    · have : a = x := by linarith
      rw [← this, hroot]; simp
    have hch := sinh_chord ha hx
    have hfv := five_sinh hx0 hsm
    rw [kep_hypb_eq] at hroot
    simp only [kep_hypb_eq, dH_eq]
    have h3 : x * ((x - a) * (Real.cosh x - 1) / 5) ≤ x * (Real.sinh x - Real.sinh a - (x - a)) := by
      have := mul_le_mul_of_nonneg_left hfv (sub_nonneg.2 hx)
      nlinarith
    have h5 := le_of_mul_le_mul_left h3 hxpos
    have hc1 := Real.one_le_cosh x
    have h6 : 0 ≤ (e - 1) * (Real.sinh x - Real.sinh a - (x - a) * Real.cosh x / 5) := by
      refine mul_nonneg (by linarith) ?_
      have : 0 ≤ x - a := by linarith
      linarith
    nlinarith
  · push Not at hsm
    have hexp : Real.exp (x - a) ≤ 2 := hcase.resolve_left (by linarith)
    have ht := sinh_tangent ha hx0
    have hcc : Real.cosh x ≤ Real.cosh a * Real.exp (x - a) := by
      have hE : Real.exp (x - a) = Real.cosh (x - a) + Real.sinh (x - a) := (Real.cosh_add_sinh _).symm
      have hxe : x = a + (x - a) := by ring
      rw [hxe, Real.cosh_add, ← hxe, hE, mul_add]
      have h5 : Real.sinh a ≤ Real.cosh a := (Real.sinh_lt_cosh _).le
      have h6 : 0 ≤ Real.sinh (x - a) := Real.sinh_nonneg_iff.2 (by linarith)
      nlinarith
    have hca : Real.cosh x ≤ 2 * Real.cosh a := by
      have := mul_le_mul_of_nonneg_left hexp (by linarith [Real.one_le_cosh a] : 0 ≤ Real.cosh a)
      linarith
    have hcx : (8 : ℝ) ≤ Real.cosh x := by
      have h18 : (18 : ℝ) ≤ Real.exp 2.9 := exp_ge_of_pow (p := 29) (q := 10) (by norm_num) (by norm_num) (by norm_num)
      have : Real.exp 2.9 ≤ Real.exp x := Real.exp_le_exp.2 hsm.le
      rw [Real.cosh_eq]
      linarith [Real.exp_pos (-x)]
    rw [kep_hypb_eq] at hroot
    simp only [kep_hypb_eq, dH_eq]
    have h7 : e * (Real.sinh a + (x - a) * Real.cosh a) ≤ e * Real.sinh x := mul_le_mul_of_nonneg_left ht (by linarith)
    have h8 : 1 / 5 * (e * Real.cosh x - 1) ≤ e * Real.cosh a - 1 := by
      have := mul_le_mul_of_nonneg_left hca (by linarith : 0 ≤ e)
      nlinarith
    have := mul_le_mul_of_nonneg_right h8 (sub_nonneg.2 hx)
    nlinarith

end

/-- Descent far from the root: each step is at least `d`. -/
theorem hypb_descent {N e x b d : ℝ} (he : 1 ≤ e) (hN : N ≤ 2.2) (hd0 : 2 / 5 ≤ d) (hd1 : d ≤ 1) (hb1 : 1 ≤ b)
    (hnum : b + 2.2 ≤ (1 - d) / 2 * Real.exp b) (hbx : b ≤ x) : newtonHypb N e x ≤ x - d := by
  have hpos : 0 < dH x e := by
    rw [dH_eq]
    have : 1 < Real.cosh x := Real.one_lt_cosh.2 (by linarith)
    nlinarith
  have h1 : Real.exp b * (1 + (x - b)) ≤ Real.exp x := by
    have := Real.add_one_le_exp (x - b)
    have h2 : Real.exp x = Real.exp b * Real.exp (x - b) := by rw [← Real.exp_add]; ring_nf
    rw [h2]
    exact mul_le_mul_of_nonneg_left (by linarith) (Real.exp_pos b).le
  have hm : Real.exp (-x) ≤ Real.exp (-1) := Real.exp_le_exp.2 (by linarith)
  have hm1 : Real.exp (-1 : ℝ) ≤ 0.37 := by
    have := Real.exp_neg_one_lt_d9
    linarith
  have hm0 := Real.exp_pos (-x)
  have h3 : x + 2.2 ≤ (1 - d) / 2 * Real.exp x := by
    have h4 := mul_le_mul_of_nonneg_left h1 (by linarith : 0 ≤ (1 - d) / 2)
    nlinarith
  have h5 : x + 2.2 - d ≤ Real.sinh x - d * Real.cosh x := by
    rw [Real.sinh_eq, Real.cosh_eq]
    nlinarith
  have h6 : x + 2.2 - d ≤ e * (Real.sinh x - d * Real.cosh x) := by nlinarith
  have h7 : d ≤ kepler_equ_hypb x e N / dH x e := by
    rw [le_div_iff₀ hpos, kep_hypb_eq, dH_eq]
    linarith
  rw [newtonHypb_eq, newton]
  linarith

/-- Steps of at least `d` above `b` bring a decreasing iteration below `b`. -/
theorem below_after {g : ℝ → ℝ} {x : ℕ → ℝ} {b d B : ℝ} (hstep : ∀ k, x (k + 1) = g (x k)) (hdec : ∀ k, x (k + 1) ≤ x k)
    (hd : ∀ y, b ≤ y → g y ≤ y - d) {n m : ℕ} (hB : x n ≤ B) (hm : B - m * d ≤ b) (hd0 : 0 ≤ d) : x (n + m) ≤ b := by
  have h : ∀ m : ℕ, x (n + m) ≤ b ∨ x (n + m) ≤ B - m * d := by
    intro m
    induction m with
    | zero => right; simpa using hB
    | succ m ih =>
      rw [← add_assoc]
      rcases le_total (x (n + m)) b with h1 | h1
      · exact Or.inl ((hdec _).trans h1)
      · rcases ih with h2 | h2
        · exact Or.inl ((hdec _).trans h2)
        · right
          have := hd _ h1
          rw [hstep]
          push_cast
          linarith
  rcases h m with h1 | h1
  · exact h1
  · exact h1.trans hm

section
variable {N e : ℝ} (he : 1 < e) (he3 : e ≤ 3) (hN : 0 ≤ N)
include he hN

theorem hypb_root : ∃ a, kepler_equ_hypb a e N = 0 ∧ 0 ≤ a := by
  obtain ⟨a, ha, -⟩ := C11_existsUnique he N
  refine ⟨a, ha, ?_⟩
  by_contra hneg
  push Not at hneg
  have h1 : Real.sinh a ≤ a := Real.sinh_le_self_iff.2 hneg.le
  simp only [kep_hypb_eq] at ha
  nlinarith

include he3

/-- The starting value right of the root. -/
theorem hypb_fast_right (hNb : N ≤ 10 ^ 300) (hstart : hypbStart N e ≤ N) (j : ℕ) (hj : 27 ≤ j) :
    |kepler_equ_hypb ((newtonHypb N e)^[j] (hypbStart N e)) e N| ≤ 1 / 1000000 := by
  obtain ⟨a, hroot, ha⟩ := hypb_root he hN
  have hu0 : 0 ≤ 2 * N / e := by positivity
  have hH0 : hypbStart N e = Real.arsinh (2 * N / e) := hypbStart_eq N e
  have hes : e * Real.sinh (hypbStart N e) = 2 * N := by
    rw [hH0, Real.sinh_arsinh]; field_simp
  set H0 := hypbStart N e with hHdef
  have h0 : 0 ≤ H0 := by rw [hH0]; exact Real.arsinh_nonneg_iff.2 hu0
  have hf : kepler_equ_hypb H0 e N = N - H0 := by rw [kep_hypb_eq, hes]; ring
  have haH : a ≤ H0 := by
    by_contra hlt
    push Not at hlt
    have := (strictMono_of_deriv_pos (f := fun H => kepler_equ_hypb H e N)
      (fun s => by rw [(hasDerivAt_hypb s e N).deriv]; exact dH_pos' he s)) hlt
    simp only [hroot, hf] at this
    linarith
  have hes2 : Real.exp (H0 - a) ≤ 2 := by
    have hra := hroot
    rw [kep_hypb_eq] at hra
    rcases hN.eq_or_lt with hz | hNpos
    · have : H0 = 0 := by rw [hH0, ← hz]; simp
      have h2 : a = H0 := by linarith
      rw [h2, sub_self, Real.exp_zero]; norm_num
    have hsa : 0 < Real.sinh a := by
      by_contra hle
      push Not at hle
      nlinarith
    have h1 : Real.exp (H0 - a) * Real.sinh a ≤ Real.sinh H0 := by
      have hE : Real.exp (H0 - a) = Real.cosh (H0 - a) + Real.sinh (H0 - a) := (Real.cosh_add_sinh _).symm
      have hxe : H0 = a + (H0 - a) := by ring
      conv_rhs => rw [hxe, Real.sinh_add]
      rw [hE]
      have h5 : Real.sinh a ≤ Real.cosh a := (Real.sinh_lt_cosh _).le
      have h6 : 0 ≤ Real.sinh (H0 - a) := Real.sinh_nonneg_iff.2 (by linarith)
      nlinarith
    have h2 : e * Real.sinh H0 ≤ e * (2 * Real.sinh a) := by linarith
    have h3 := le_of_mul_le_mul_left h2 (by linarith)
    exact le_of_mul_le_mul_right (h1.trans h3) hsa
  have hquad : ∀ x, a ≤ x → x ≤ H0 → newtonHypb N e x - a ≤ 16 * (x - a) ^ 2 := by
    intro x hax hxH
    rcases le_total (2001 / 2000) e with he2 | he2
    · exact hypb_quad he hroot ha he2 hax
    rcases h0.eq_or_lt with hz | hHpos
    · have hxa : x = a := by linarith
      rw [hxa, newtonHypb_eq, newton, hroot, zero_div]; simp
    -- the start, hence the root, is far from the origin
    have hH2 : 2 ≤ H0 := by
      by_contra hlt
      push Not at hlt
      have hE2 : Real.exp 2 ≤ 7.4 := by
        have h1 : Real.exp 2 = Real.exp 1 ^ 2 := by rw [← Real.exp_nat_mul]; norm_num
        rw [h1]
        exact (pow_le_pow_left₀ (Real.exp_pos 1).le Real.exp_one_lt_d9.le 2).trans (by norm_num)
      have hs2 : Real.sinh 2 ≤ 3.7 := by rw [Real.sinh_eq]; linarith [Real.exp_pos (-2)]
      have hch := sinh_chord h0 hlt.le
      have h1 : Real.sinh H0 ≤ 1.85 * H0 := by nlinarith
      nlinarith
    have ha1 : 1 ≤ a := by have := Real.add_one_le_exp (H0 - a); linarith
    have hq := newton_quad (f := fun H => kepler_equ_hypb H e N) (f' := fun H => dH H e) (f'' := fun s => e * Real.sinh s)
      (C := 32) (fun s => hasDerivAt_hypb s e N) (hasDerivAt_dH e) hax hroot (dH_pos' he x) (fun s hs => ?_)
    · rw [newtonHypb_eq]; linarith
    · rw [dH_eq]
      have h1 : e * Real.sinh s ≤ e * Real.sinh x := mul_le_mul_of_nonneg_left (Real.sinh_le_sinh.2 hs.2) (by linarith)
      have h2 : e * Real.sinh x ≤ e * Real.cosh x := mul_le_mul_of_nonneg_left (Real.sinh_lt_cosh x).le (by linarith)
      have h3 : Real.sinh x ≤ Real.cosh x := (Real.sinh_lt_cosh x).le
      have h4 : x ≤ Real.sinh x := Real.self_le_sinh_iff.2 (by linarith)
      have h5 := Real.cosh_sq x
      have h6 : 11 / 10 ≤ Real.cosh x := by nlinarith
      nlinarith
  set x : ℕ → ℝ := fun k => (newtonHypb N e)^[k] H0 with hx
  have hstep : ∀ k, x (k + 1) = newtonHypb N e (x k) := fun k => by
    simp only [hx, Function.iterate_succ_apply']
  have hin : ∀ k, a ≤ x k ∧ x k ≤ H0 := by
    intro k
    induction k with
    | zero => exact ⟨haH, le_rfl⟩
    | succ k ih =>
      rw [hstep]
      exact ⟨hypb_right he hroot ha (ha.trans ih.1), (hypb_decreases he hroot ha ih.1).trans ih.2⟩
  have hd := decay (δ := fun k => x k - a) (ρ := 4 / 5) (c := 16) (D := 1) (n := 16) (by norm_num) (by norm_num)
    (fun k => sub_nonneg.2 (hin k).1)
    (by have := Real.add_one_le_exp (H0 - a); show H0 - a ≤ 1; linarith)
    (fun k => by
      rw [hstep]
      refine hypb_lin he hroot ha (hin k).1 (Or.inr ?_)
      exact (Real.exp_le_exp.2 (by linarith [(hin k).2])).trans hes2)
    (fun k => by rw [hstep]; exact hquad _ (hin k).1 (hin k).2)
    (by norm_num) (j - 16)
  rw [show 16 + (j - 16) = j by omega] at hd
  obtain ⟨r0, r1⟩ := hypb_resid_nonneg he hroot ha (hin j).1
  show |kepler_equ_hypb (x j) e N| ≤ _
  rw [abs_of_nonneg r0]
  have hdj : dH (x j) e ≤ 3 + 2 * N := by
    refine (dH_mono (by linarith) (ha.trans (hin j).1) (hin j).2).trans ?_
    rw [dH_eq]
    have hcs := Real.cosh_sq H0
    have hs0 : 0 ≤ Real.sinh H0 := Real.sinh_nonneg_iff.2 h0
    have : Real.cosh H0 ≤ 1 + Real.sinh H0 := by nlinarith [Real.one_le_cosh H0]
    nlinarith
  have h2 : (1 / 2 : ℝ) ^ 2 ^ (j - 16) ≤ (1 / 2) ^ 2048 :=
    pow_le_pow_of_le_one (by norm_num) (by norm_num)
      (show 2 ^ 11 ≤ 2 ^ (j - 16) from Nat.pow_le_pow_right (by norm_num) (by omega))
  have h3 : (1 / 2 : ℝ) ^ 2048 ≤ (1 / 10) ^ 307 := by
    have h4 : (1 / 2 : ℝ) ^ 4 ≤ 1 / 10 := by norm_num
    calc (1 / 2 : ℝ) ^ 2048 ≤ (1 / 2 : ℝ) ^ (4 * 307) :=
          pow_le_pow_of_le_one (by norm_num) (by norm_num) (by norm_num)
      _ = ((1 / 2 : ℝ) ^ 4) ^ 307 := pow_mul _ _ _
      _ ≤ (1 / 10) ^ 307 := pow_le_pow_left₀ (by positivity) h4 307
  have hδ : x j - a ≤ (1 / 10) ^ 307 := by
    refine hd.trans ?_
    rw [div_le_iff₀ (by norm_num)]
    have h5 : (0 : ℝ) ≤ (1 / 10) ^ 307 := by positivity
    refine (h2.trans h3).trans ?_
    exact le_mul_of_one_le_right h5 (by norm_num)
  have hb : (3 + 2 * N) ≤ 10 ^ 301 := by
    have e2 : (1 : ℝ) ≤ 10 ^ 300 := one_le_pow₀ (by norm_num)
    rw [show (301 : ℕ) = 300 + 1 from rfl, pow_succ (10 : ℝ) 300]
    generalize (10 : ℝ) ^ 300 = t at hNb e2 ⊢
    linarith
  calc kepler_equ_hypb (x j) e N ≤ dH (x j) e * (x j - a) := r1
    _ ≤ 10 ^ 301 * (1 / 10) ^ 307 :=
        mul_le_mul (hdj.trans hb) hδ (sub_nonneg.2 (hin j).1) (by positivity)
    _ = 1 / 1000000 := by rw [one_div_pow, pow_add 10 301 6]; field_simp; norm_num

/-- The starting value left of the root. -/
theorem hypb_fast_left (he2 : 2001 / 2000 ≤ e) (hstart : N < hypbStart N e) (j : ℕ) (hj : 47 ≤ j) :
    |kepler_equ_hypb ((newtonHypb N e)^[j] (hypbStart N e)) e N| ≤ 1 / 1000000 := by
  obtain ⟨a, hroot, ha⟩ := hypb_root he hN
  have hu0 : 0 ≤ 2 * N / e := by positivity
  have hH0 : hypbStart N e = Real.arsinh (2 * N / e) := hypbStart_eq N e
  have hes : e * Real.sinh (hypbStart N e) = 2 * N := by
    rw [hH0, Real.sinh_arsinh]; field_simp
  set H0 := hypbStart N e with hHdef
  have h0 : 0 ≤ H0 := by rw [hH0]; exact Real.arsinh_nonneg_iff.2 hu0
  have hf : kepler_equ_hypb H0 e N = N - H0 := by rw [kep_hypb_eq, hes]; ring
  have hsp : H0 ≤ Real.sinh H0 := Real.self_le_sinh_iff.2 h0
  have hH22 : H0 ≤ 2.2 := by
    by_contra hlt
    push Not at hlt
    have hE : (8.92 : ℝ) ≤ Real.exp 2.2 := exp_ge_of_pow (p := 11) (q := 5) (by norm_num) (by norm_num) (by norm_num)
    have hm : Real.exp (-2.2) ≤ 0.12 := by
      have : Real.exp (-2.2) * Real.exp 2.2 = 1 := by rw [← Real.exp_add]; norm_num
      nlinarith [Real.exp_pos (-2.2)]
    have hs : (4.4 : ℝ) ≤ Real.sinh 2.2 := by rw [Real.sinh_eq]; linarith
    have hc : (4.4 : ℝ) ≤ Real.cosh 2.2 := by rw [Real.cosh_eq]; linarith [Real.exp_pos (-2.2)]
    have ht := sinh_tangent (by norm_num : (0 : ℝ) ≤ 2.2) h0
    nlinarith
  have hN22 : N ≤ 2.2 := by linarith
  -- the first step
  have hjump : newtonHypb N e H0 ≤ 18.1 := by
    have hc : 1 + H0 ^ 2 / 2 ≤ Real.cosh H0 := by
      have h1 := Real.cosh_two_mul (H0 / 2)
      rw [show 2 * (H0 / 2) = H0 by ring, Real.cosh_sq] at h1
      have h2 : H0 / 2 ≤ Real.sinh (H0 / 2) := Real.self_le_sinh_iff.2 (by linarith)
      nlinarith
    have hpos := dH_pos' he H0
    have : -(15.9 : ℝ) ≤ kepler_equ_hypb H0 e N / dH H0 e := by
      rw [le_div_iff₀ hpos, hf, dH_eq]
      have h1 : H0 - N ≤ H0 / 2 := by nlinarith
      have h2 : 1 / 2000 + H0 ^ 2 / 2 ≤ e * Real.cosh H0 - 1 := by nlinarith [sq_nonneg H0]
      have h3 : H0 / 2 ≤ 15.9 * (1 / 2000 + H0 ^ 2 / 2) := by nlinarith [sq_nonneg (H0 - 1 / 31.8)]
      linarith
    rw [newtonHypb_eq, newton]
    linarith
  set x : ℕ → ℝ := fun k => (newtonHypb N e)^[k + 1] H0 with hx
  have hstep : ∀ k, x (k + 1) = newtonHypb N e (x k) := fun k => by
    simp only [hx, Function.iterate_succ_apply']
  have hin : ∀ k, a ≤ x k := by
    intro k
    induction k with
    | zero => exact hypb_right he hroot ha h0
    | succ k ih =>
      rw [hstep]
      exact hypb_right he hroot ha (ha.trans ih)
  have hdec : ∀ k, x (k + 1) ≤ x k := fun k => by
    rw [hstep]; exact hypb_decreases he hroot ha (hin k)
  have hanti : Antitone x := antitone_nat_of_succ_le hdec
  have e6 : (400 : ℝ) ≤ Real.exp 6 := exp_ge_of_pow (p := 6) (q := 1) (by norm_num) (by norm_num) (by norm_num)
  have e4 : (54 : ℝ) ≤ Real.exp 4 := exp_ge_of_pow (p := 4) (q := 1) (by norm_num) (by norm_num) (by norm_num)
  have e29 : (18 : ℝ) ≤ Real.exp 2.9 := exp_ge_of_pow (p := 29) (q := 10) (by norm_num) (by norm_num) (by norm_num)
  have b1 : x (0 + 14) ≤ 6 := below_after (n := 0) (m := 14) (g := newtonHypb N e) (d := 9 / 10) (B := 18.1) hstep hdec
    (fun y hy => hypb_descent (b := 6) (by linarith) hN22 (by norm_num) (by norm_num) (by norm_num) (by linarith) hy)
    hjump (by norm_num) (by norm_num)
  have b2 : x (14 + 3) ≤ 4 := below_after (g := newtonHypb N e) (d := 3 / 4) (B := 6) hstep hdec
    (fun y hy => hypb_descent (b := 4) (by linarith) hN22 (by norm_num) (by norm_num) (by norm_num) (by linarith) hy)
    b1 (by norm_num) (by norm_num)
  have b3 : x (17 + 3) ≤ 2.9 := below_after (g := newtonHypb N e) (d := 2 / 5) (B := 4) hstep hdec
    (fun y hy => hypb_descent (b := 2.9) (by linarith) hN22 (by norm_num) (by norm_num) (by norm_num) (by linarith) hy)
    b2 (by norm_num) (by norm_num)
  have hb : ∀ k, x (20 + k) ≤ 2.9 := fun k => (hanti (Nat.le_add_right 20 k)).trans b3
  have hd := decay (δ := fun k => x (20 + k) - a) (ρ := 4 / 5) (c := 16) (D := 2.9) (n := 21) (by norm_num) (by norm_num)
    (fun k => sub_nonneg.2 (hin _)) (by have := hb 0; linarith)
    (fun k => by
      rw [← add_assoc, hstep]
      exact hypb_lin he hroot ha (hin _) (Or.inl (hb k)))
    (fun k => by rw [← add_assoc, hstep]; exact hypb_quad he hroot ha he2 (hin _))
    (by norm_num) (j - 42)
  obtain ⟨i, rfl⟩ : ∃ i, j = i + 1 := ⟨j - 1, by omega⟩
  rw [show 20 + (21 + (i + 1 - 42)) = i by omega] at hd
  obtain ⟨r0, r1⟩ := hypb_resid_nonneg he hroot ha (hin i)
  have hi : x i ≤ 2.9 := by have := hb (i - 20); rwa [show 20 + (i - 20) = i by omega] at this
  show |kepler_equ_hypb (x i) e N| ≤ _
  rw [abs_of_nonneg r0]
  have hdj : dH (x i) e ≤ 80 := by
    refine (dH_mono (by linarith) (ha.trans (hin i)) hi).trans ?_
    rw [dH_eq]
    have hE : Real.exp 2.9 ≤ 27 := by
      have h1 : Real.exp 2.9 ≤ Real.exp 1 ^ 3 := by
        rw [← Real.exp_nat_mul]; exact Real.exp_le_exp.2 (by norm_num)
      have h2 : Real.exp 1 ^ 3 ≤ 2.7182818286 ^ 3 := pow_le_pow_left₀ (Real.exp_pos 1).le Real.exp_one_lt_d9.le 3
      exact h1.trans (h2.trans (by norm_num))
    have hm : Real.exp (-2.9) ≤ 1 := Real.exp_le_one_iff.2 (by norm_num)
    have hc : Real.cosh 2.9 ≤ 14 := by rw [Real.cosh_eq]; linarith
    have := Real.one_le_cosh 2.9
    nlinarith
  have h2 : (1 / 2 : ℝ) ^ 2 ^ (i + 1 - 42) ≤ (1 / 2) ^ 32 :=
    pow_le_pow_of_le_one (by norm_num) (by norm_num)
      (show 2 ^ 5 ≤ 2 ^ (i + 1 - 42) from Nat.pow_le_pow_right (by norm_num) (by omega))
  have hδ : x i - a ≤ 1 / 80000000 := by
    refine hd.trans ?_
    rw [div_le_iff₀ (by norm_num)]
    refine h2.trans (by norm_num)
  calc kepler_equ_hypb (x i) e N ≤ dH (x i) e * (x i - a) := r1
    _ ≤ 80 * (1 / 80000000) := mul_le_mul hdj hδ (sub_nonneg.2 (hin i)) (by norm_num)
    _ = 1 / 1000000 := by norm_num

end

/-- C18 for hyperbolas, the part that holds: for every eccentricity of at least `1.0005` and every `|N| ≤ 10³⁰⁰`
the default call meets its tolerance; 47 iterations suffice.
Missing from the full claim: eccentricities between 1 and 1.0005 (false near 1 by `C18_hypb_default_refuted`). -/
theorem C18_hypb_default_low_partial {e : ℝ} (he : 2001 / 2000 ≤ e) (N : ℝ) (hN : |N| ≤ 10 ^ 300) (max_iter : ℕ := 50)
    (hn : 47 ≤ max_iter) :
    ∃ H, solve_kepler_hypb N e defaultTol max_iter = some H ∧ |kepler_equ_hypb H e N| ≤ 1 / 1000000 := by
  rcases le_total 3 e with he3 | he3
  · exact C18_hypb_default_partial he3 N hN max_iter (by omega)
  have htol : (defaultTol : ℝ) = 1 / 1000000 := by norm_num [defaultTol]
  have key : ∀ N : ℝ, 0 ≤ N → N ≤ 10 ^ 300 →
      ∃ H, solve_kepler_hypb N e defaultTol max_iter = some H ∧ |kepler_equ_hypb H e N| ≤ 1 / 1000000 := by
    intro N hN0 hN
    obtain ⟨k, hk, -, hs, -, hstop⟩ := C13_hypb N e defaultTol max_iter
    refine ⟨_, hs, ?_⟩
    rcases hk.lt_or_eq with h | rfl
    · have := hstop h
      simp only [lt_real, abs_real, decide_eq_false_iff_not, not_lt] at this
      rwa [htol] at this
    · rcases le_or_gt (hypbStart N e) N with hst | hst
      · exact hypb_fast_right (by linarith) he3 hN0 hN hst k (by omega)
      · exact hypb_fast_left (by linarith) he3 hN0 he hst k hn
  rcases le_total 0 N with h | h
  · exact key N h (by rwa [abs_of_nonneg h] at hN)
  · obtain ⟨H, hH, hres⟩ := key (-N) (by linarith) (by rwa [abs_of_nonpos h] at hN)
    have hodd := C17_hypb_odd (-N) e defaultTol max_iter
    rw [neg_neg, hH] at hodd
    refine ⟨-H, hodd, ?_⟩
    have : kepler_equ_hypb (-H) e N = -kepler_equ_hypb H e (-N) := by
      rw [kep_hypb_eq, kep_hypb_eq, Real.sinh_neg]; ring
    rwa [this, abs_neg]

/-- 1I/ʻOumuamua, `e = 1.2`, at every time. -/
example (N : ℝ) (hN : |N| ≤ 10 ^ 300) : ∃ H, solve_kepler_hypb N (6 / 5) defaultTol 50 = some H ∧
    |kepler_equ_hypb H (6 / 5) N| ≤ 1 / 1000000 :=
  C18_hypb_default_low_partial (by norm_num) N hN 50 (by norm_num)

end Adx
