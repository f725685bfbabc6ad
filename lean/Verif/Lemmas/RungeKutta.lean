import Verif.Model.RungeKutta
import Verif.Lemmas.Cowell
import Mathlib.Analysis.Calculus.MeanValue
import Mathlib.Analysis.SpecialFunctions.Exp

/-! # One Runge–Kutta step, and the accumulation of its errors -/

namespace Adx

/-- Sum of the absolute values of a row. -/
def rowAbs (row : List ℝ) : ℝ := (row.map fun x => |x|).sum

theorem rowAbs_nonneg (row : List ℝ) : 0 ≤ rowAbs row := by
  unfold rowAbs; exact List.sum_nonneg (by simp)

section
variable {E : Type} [NormedAddCommGroup E] [NormedSpace ℝ E]

theorem rkCombine_cons (h : ℝ) (y : E) (a : ℝ) (row : List ℝ) (k : E) (ks : List E) :
    rkCombine h y (a :: row) (k :: ks) = rkCombine h (y + (h * a) • k) row ks := rfl

/-- A weighted sum of vectors near `k0` is near the sum of weights times `k0`. -/
theorem rkCombine_near {h D : ℝ} (hh : 0 ≤ h) (k0 : E) (row : List ℝ) : ∀ (ks : List E) (y : E),
    (∀ k ∈ ks, ‖k - k0‖ ≤ D) → row.length ≤ ks.length →
    ‖rkCombine h y row ks - y - (h * row.sum) • k0‖ ≤ h * rowAbs row * D := by
  induction row with
  | nil => intro ks y _ _; simp [rkCombine, rowAbs]
  | cons a row ih =>
    intro ks y hk hl
    cases ks with
    | nil => simp at hl
    | cons k ks =>
      have h1 := ih ks (y + (h * a) • k) (fun q hq => hk q (by simp [hq])) (by simpa using hl)
      rw [rkCombine_cons]
      have e : rkCombine h (y + (h * a) • k) row ks - y - (h * (a :: row).sum) • k0
          = (rkCombine h (y + (h * a) • k) row ks - (y + (h * a) • k) - (h * row.sum) • k0) + (h * a) • (k - k0) := by
        rw [List.sum_cons]; module
      rw [e]
      refine (norm_add_le _ _).trans ?_
      rw [norm_smul, Real.norm_eq_abs, abs_mul, abs_of_nonneg hh]
      have h2 := hk k (by simp)
      have h3 : h * |a| * ‖k - k0‖ ≤ h * |a| * D := by gcongr
      have e2 : rowAbs (a :: row) = |a| + rowAbs row := by simp [rowAbs]
      rw [e2]
      linarith

/-- A weighted sum of bounded vectors moves the state by at most that much. -/
theorem rkCombine_le {h M : ℝ} (hh : 0 ≤ h) (hM : 0 ≤ M) (row : List ℝ) : ∀ (ks : List E) (y : E),
    (∀ k ∈ ks, ‖k‖ ≤ M) → ‖rkCombine h y row ks - y‖ ≤ h * rowAbs row * M := by
  induction row with
  | nil => intro ks y _; simp [rkCombine, rowAbs]
  | cons a row ih =>
    intro ks y hk
    cases ks with
    | nil =>
      have := rowAbs_nonneg (a :: row)
      simp only [rkCombine, List.zip_nil_right, List.foldl_nil, sub_self, norm_zero]; positivity
    | cons k ks =>
      have h1 := ih ks (y + (h * a) • k) (fun q hq => hk q (by simp [hq]))
      rw [rkCombine_cons]
      have e : rkCombine h (y + (h * a) • k) row ks - y
          = (rkCombine h (y + (h * a) • k) row ks - (y + (h * a) • k)) + (h * a) • k := by module
      rw [e]
      refine (norm_add_le _ _).trans ?_
      rw [norm_smul, Real.norm_eq_abs, abs_mul, abs_of_nonneg hh]
      have h2 := hk k (by simp)
      have h3 : h * |a| * ‖k‖ ≤ h * |a| * M := by gcongr
      have e2 : rowAbs (a :: row) = |a| + rowAbs row := by simp [rowAbs]
      rw [e2]
      linarith

/-- The coefficients: every row has absolute sum at most `A`, the weights (last row) sum to `β`, and each row has at most
one coefficient per stage already computed. -/
structure RowsOk (A β : ℝ) (rows : List (ℝ × List ℝ)) (n : ℕ) : Prop where
  /-- bound -/
  abs : ∀ p ∈ rows, rowAbs p.2 ≤ A
  /-- weights -/
  last : ∀ p, rows.getLast? = some p → p.2.sum = β
  /-- lower triangular -/
  tri : ∀ i (hi : i < rows.length), (rows[i]).2.length ≤ n + i

theorem RowsOk.tail {A β : ℝ} {p : ℝ × List ℝ} {rows : List (ℝ × List ℝ)} {n : ℕ} (h : RowsOk A β (p :: rows) n) :
    RowsOk A β rows (n + 1) where
  abs q hq := h.abs q (by simp [hq])
  last q hq := h.last q (by
    cases rows with
    | nil => simp at hq
    | cons a l => simpa [List.getLast?_cons_cons] using hq)
  tri i hi := by
    have := h.tri (i + 1) (by simpa using hi)
    simp at this
    omega

/-- One step of any explicit Runge–Kutta method differs from an Euler step by `O(h²)`. -/
theorem rkStages_near {F : E → E} {A β L M h ρ : ℝ} {y : E} (hh : 0 ≤ h) (hA : 0 ≤ A) (hL : 0 ≤ L) (hM : 0 ≤ M)
    (hlip : ∀ u, ‖u - y‖ ≤ ρ → ‖F u - F y‖ ≤ L * ‖u - y‖) (hbd : ∀ u, ‖u - y‖ ≤ ρ → ‖F u‖ ≤ M)
    (hρ : h * A * M ≤ ρ) (t : ℝ) : ∀ (rows : List (ℝ × List ℝ)) (ks : List E) (yl kl : E),
    rows ≠ [] → RowsOk A β rows ks.length → (∀ k ∈ ks, ‖k‖ ≤ M ∧ ‖k - F y‖ ≤ L * (h * A * M)) →
    let r := rkStages (fun _ => F) t h y rows ks yl kl
    ‖r.1 - y - (h * β) • F y‖ ≤ h * A * (L * (h * A * M)) ∧ r.2 = F r.1 := by
  intro rows
  induction rows with
  | nil => intro ks yl kl h; exact absurd rfl h
  | cons p rest ih =>
    intro ks yl kl _ hR hk
    have h1 := rkCombine_le hh hM p.2 ks y fun k hk' => (hk k hk').1
    have hp := hR.abs p (by simp)
    have h2 : ‖rkCombine h y p.2 ks - y‖ ≤ h * A * M := h1.trans (by gcongr)
    cases hrest : rest with
    | nil =>
      subst hrest
      simp only [rkStages]
      refine ⟨?_, trivial⟩
      have h3 := rkCombine_near hh (D := L * (h * A * M)) (F y) p.2 ks y (fun k hk' => (hk k hk').2)
        (by simpa using hR.tri 0 (by simp))
      rw [hR.last p (by simp)] at h3
      exact h3.trans (by gcongr)
    | cons q l =>
      rw [← hrest]
      have := ih (ks ++ [F (rkCombine h y p.2 ks)]) (rkCombine h y p.2 ks) (F (rkCombine h y p.2 ks)) (by simp [hrest])
        (by simpa using hR.tail) (by
          intro k hk'
          rcases List.mem_append.1 hk' with hk' | hk'
          · exact hk k hk'
          · rw [List.mem_singleton] at hk'
            subst hk'
            refine ⟨hbd _ (h2.trans hρ), (hlip _ (h2.trans hρ)).trans (by gcongr)⟩)
      exact this

/-- An exact solution differs from an Euler step by `O(h²)`. -/
theorem exact_near {F : E → E} {X : ℝ → E} {L M ρ t s : ℝ} (hs : 0 ≤ s) (hL : 0 ≤ L) (hM : 0 ≤ M)
    (hX : ∀ u ∈ Set.Icc t (t + s), HasDerivWithinAt X (F (X u)) (Set.Icc t (t + s)) u)
    (hbd : ∀ u ∈ Set.Icc t (t + s), ‖F (X u)‖ ≤ M)
    (hlip : ∀ z, ‖z - X t‖ ≤ ρ → ‖F z - F (X t)‖ ≤ L * ‖z - X t‖) (hρ : s * M ≤ ρ) :
    ‖X (t + s) - X t - s • F (X t)‖ ≤ L * M * s ^ 2 := by
  have ht : t ∈ Set.Icc t (t + s) := ⟨le_rfl, by linarith⟩
  have hts : t + s ∈ Set.Icc t (t + s) := ⟨by linarith, le_rfl⟩
  have h1 : ∀ u ∈ Set.Icc t (t + s), ‖X u - X t‖ ≤ M * s := by
    intro u hu
    have := (convex_Icc t (t + s)).norm_image_sub_le_of_norm_hasDerivWithin_le hX hbd ht hu
    refine this.trans ?_
    rw [Real.norm_eq_abs, abs_of_nonneg (by linarith [hu.1])]
    gcongr; linarith [hu.2]
  have h2 : ∀ u ∈ Set.Icc t (t + s), HasDerivWithinAt (fun u => X u - u • F (X t)) (F (X u) - F (X t))
      (Set.Icc t (t + s)) u := by
    intro u hu
    have := (hX u hu).sub ((hasDerivWithinAt_id u (Set.Icc t (t + s))).smul_const (F (X t)))
    rw [one_smul] at this
    exact this
  have h3 : ∀ u ∈ Set.Icc t (t + s), ‖F (X u) - F (X t)‖ ≤ L * (M * s) := by
    intro u hu
    have := h1 u hu
    refine (hlip _ (this.trans (by linarith))).trans (by gcongr)
  have := (convex_Icc t (t + s)).norm_image_sub_le_of_norm_hasDerivWithin_le h2 h3 ht hts
  have e : X (t + s) - (t + s) • F (X t) - (X t - t • F (X t)) = X (t + s) - X t - s • F (X t) := by module
  rw [e] at this
  refine this.trans (le_of_eq ?_)
  rw [Real.norm_eq_abs, abs_of_nonneg (by linarith)]
  ring

/-- One step: the new error in terms of the old one. -/
theorem step_error {F : E → E} {X : ℝ → E} {A β L M ρ t h H : ℝ} {y : E} (hh : 0 ≤ h) (hH : h ≤ H) (hA : 0 ≤ A)
    (hL : 0 ≤ L) (hM : 0 ≤ M)
    (hX : ∀ u ∈ Set.Icc t (t + h), HasDerivWithinAt X (F (X u)) (Set.Icc t (t + h)) u)
    (hbd : ∀ u ∈ Set.Icc t (t + h), ∀ z, ‖z - X u‖ ≤ 2 * ρ → ‖F z‖ ≤ M)
    (hlip : ∀ z w, ‖z - X t‖ ≤ 2 * ρ → ‖w - X t‖ ≤ 2 * ρ → ‖F z - F w‖ ≤ L * ‖z - w‖)
    (hy : ‖y - X t‖ ≤ ρ) (hρ : H * A * M ≤ ρ) (hρ2 : H * M ≤ ρ) {rows : List (ℝ × List ℝ)} (hr : rows ≠ [])
    (hR : RowsOk A β rows 1) (yl kl : E) :
    let r := rkStages (fun _ => F) t h y rows [F y] yl kl
    ‖r.1 - X (t + h)‖ ≤ (1 + L * h) * ‖y - X t‖ + h * (|β - 1| * M + H * (L * M * (A ^ 2 + 1))) ∧ r.2 = F r.1 := by
  intro r
  have hρ0 : 0 ≤ ρ := (norm_nonneg _).trans hy
  have ht : t ∈ Set.Icc t (t + h) := ⟨le_rfl, by linarith⟩
  have near : ∀ u, ‖u - y‖ ≤ ρ → ‖u - X t‖ ≤ 2 * ρ := fun u hu => by
    have : u - X t = (u - y) + (y - X t) := by abel
    rw [this]; exact (norm_add_le _ _).trans (by linarith)
  have hyy : ‖y - y‖ ≤ ρ := by simpa using hρ0
  have hXX : ‖X t - X t‖ ≤ 2 * ρ := by simpa using by linarith
  have hFy : ‖F y‖ ≤ M := hbd t ht y (near y hyy)
  obtain ⟨h1, h2⟩ := rkStages_near (β := β) (ρ := ρ) (F := F) (y := y) hh hA hL hM (fun u hu => hlip u y (near u hu) (near y hyy))
    (fun u hu => hbd t ht u (near u hu)) ((by gcongr : h * A * M ≤ H * A * M).trans hρ) t rows [F y] yl kl hr hR (by
      intro k hk
      rw [List.mem_singleton] at hk
      subst hk
      refine ⟨hFy, ?_⟩
      rw [sub_self, norm_zero]; positivity)
  refine ⟨?_, h2⟩
  have h3 := exact_near (ρ := 2 * ρ) hh hL hM hX (fun u hu => hbd u hu _ (by simpa using by linarith))
    (fun z hz => hlip z (X t) hz hXX) (by nlinarith [mul_le_mul_of_nonneg_right hH hM])
  have e : r.1 - X (t + h) = (r.1 - y - (h * β) • F y) - (X (t + h) - X t - h • F (X t)) + (y - X t)
      + h • (F y - F (X t)) + (h * (β - 1)) • F y := by module
  have h4 := hlip y (X t) (near y hyy) hXX
  rw [e]
  refine (norm_add_le _ _).trans ?_
  rw [norm_smul (h * (β - 1)), Real.norm_eq_abs, abs_mul, abs_of_nonneg hh]
  have n1 : ‖r.1 - y - (h * β) • F y - (X (t + h) - X t - h • F (X t)) + (y - X t) + h • (F y - F (X t))‖
      ≤ h * A * (L * (h * A * M)) + L * M * h ^ 2 + ‖y - X t‖ + h * (L * ‖y - X t‖) := by
    refine (norm_add_le _ _).trans (add_le_add ((norm_add_le _ _).trans (add_le_add ((norm_sub_le _ _).trans
      (add_le_add h1 h3)) le_rfl)) ?_)
    rw [norm_smul, Real.norm_eq_abs, abs_of_nonneg hh]
    gcongr
  have n2 : h * |β - 1| * ‖F y‖ ≤ h * |β - 1| * M := by gcongr
  have n3 : h * A * (L * (h * A * M)) + L * M * h ^ 2 ≤ h * (H * (L * M * (A ^ 2 + 1))) := by
    have : h * A * (L * (h * A * M)) + L * M * h ^ 2 = h * (h * (L * M * (A ^ 2 + 1))) := by ring
    rw [this]; gcongr
  nlinarith

/-! ## Transport along a linear map -/

section
variable {Y : Type} [Add Y] [SMul ℝ Y] {φ : Y → E} (hadd : ∀ a b, φ (a + b) = φ a + φ b)
  (hsmul : ∀ (k : ℝ) a, φ (k • a) = k • φ a)
include hadd hsmul

theorem rkCombine_map (h : ℝ) (row : List ℝ) : ∀ (ks : List Y) (y : Y),
    φ (rkCombine h y row ks) = rkCombine h (φ y) row (ks.map φ) := by
  induction row with
  | nil => intro ks y; rfl
  | cons a row ih =>
    intro ks y
    cases ks with
    | nil => rfl
    | cons k ks =>
      have := ih ks (y + (h * a) • k)
      rw [hadd, hsmul] at this
      exact this

theorem rkStages_map {f : ℝ → Y → Y} {F : E → E} (hf : ∀ t y, φ (f t y) = F (φ y)) (t h : ℝ) (y : Y) :
    ∀ (rows : List (ℝ × List ℝ)) (ks : List Y) (yl kl : Y),
    (φ (rkStages f t h y rows ks yl kl).1, φ (rkStages f t h y rows ks yl kl).2)
      = rkStages (fun _ => F) t h (φ y) rows (ks.map φ) (φ yl) (φ kl) := by
  intro rows
  induction rows with
  | nil => intro ks yl kl; rfl
  | cons p rest ih =>
    intro ks yl kl
    simp only [rkStages]
    rw [ih]
    rw [List.map_append, List.map_singleton, hf, rkCombine_map hadd hsmul]

end

/-! ## The error along a run -/

/-- The exact solution `X` on `[0, T]`, and bounds of the field in a tube of radius `2ρ` around it. -/
structure Tube (F : E → E) (X : ℝ → E) (T L M ρ : ℝ) : Prop where
  /-- exact solution -/
  sol : ∀ u ∈ Set.Icc 0 T, HasDerivWithinAt X (F (X u)) (Set.Icc 0 T) u
  /-- bound -/
  bd : ∀ u ∈ Set.Icc 0 T, ∀ z, ‖z - X u‖ ≤ 2 * ρ → ‖F z‖ ≤ M
  /-- Lipschitz -/
  lip : ∀ u ∈ Set.Icc 0 T, ∀ z w, ‖z - X u‖ ≤ 2 * ρ → ‖w - X u‖ ≤ 2 * ρ → ‖F z - F w‖ ≤ L * ‖z - w‖

/-- Error per unit time of steps not longer than `H`. -/
def rkEps (A β L M H : ℝ) : ℝ := |β - 1| * M + H * (L * M * (A ^ 2 + 1))

theorem growth {L ε η t h : ℝ} (hL : 0 ≤ L) (hε : 0 ≤ ε) (hη : 0 ≤ η) (ht : 0 ≤ t) (hh : 0 ≤ h) :
    (1 + L * h) * ((η + ε * t) * Real.exp (L * t)) + h * ε ≤ (η + ε * (t + h)) * Real.exp (L * (t + h)) := by
  have e : Real.exp (L * (t + h)) = Real.exp (L * t) * Real.exp (L * h) := by rw [← Real.exp_add]; congr 1; ring
  have h1 : 1 + L * h ≤ Real.exp (L * h) := by linarith [Real.add_one_le_exp (L * h)]
  have h2 : 1 ≤ Real.exp (L * t) := Real.one_le_exp (by positivity)
  have h3 : 1 ≤ Real.exp (L * h) := Real.one_le_exp (by positivity)
  have h4 : 1 ≤ Real.exp (L * t) * Real.exp (L * h) := one_le_mul_of_one_le_of_one_le h2 h3
  rw [e]
  have h5 : (1 + L * h) * ((η + ε * t) * Real.exp (L * t)) ≤ Real.exp (L * h) * ((η + ε * t) * Real.exp (L * t)) := by gcongr
  have h6 : h * ε * 1 ≤ h * ε * (Real.exp (L * t) * Real.exp (L * h)) := by gcongr
  nlinarith

theorem rk_run {Y γ : Type} [Add Y] [SMul ℝ Y] {φ : Y → E} (hadd : ∀ a b, φ (a + b) = φ a + φ b)
    (hsmul : ∀ (k : ℝ) a, φ (k • a) = k • φ a) {f : ℝ → Y → Y} {F : E → E} (hf : ∀ t y, φ (f t y) = F (φ y))
    {X : ℝ → E} {A β L M ρ H η : ℝ} {ctol : ℝ} {c : Call ℝ Y Y γ} {g : Option (ℝ → Y → ℝ)} {first : ℝ × γ} {P : γ → Prop}
    {tb : Tableau ℝ} {interp : ℝ → ℝ → Y → Y → ℝ → Y} {err : ℝ → ℝ → Y → Y → Y}
    (hA : 0 ≤ A) (hL : 0 ≤ L) (hM : 0 ≤ M) (hH : 0 ≤ H)
    (hsolver : c.solver = rkSolver tb interp err) (hne : tb.rows ≠ []) (hR : RowsOk A β tb.rows 1)
    (ht0 : c.t0 = 0) (h01 : 0 < c.t1) (hX : Tube F X c.t1 L M ρ) (hX0 : ‖φ c.y0 - X 0‖ ≤ η)
    (h1 : H * A * M ≤ ρ) (h2 : H * M ≤ ρ) (h3 : (η + rkEps A β L M H * c.t1) * Real.exp (L * c.t1) ≤ ρ)
    (hc : 0 ≤ ctol) (hv : c.stepsize_controller.Valid c.dt0 P)
    (hi : c.stepsize_controller.init f c.t0 c.t1 c.y0 c.dt0 = .ok first) (k : ℕ)
    (hrun : ∀ j < k, running c.t1 (coreAt ctol c f g first j) = true)
    (hstep : (keptRev (c.t0, c.y0) (coreAt ctol c f g first) k).IsChain fun q p => q.1 - p.1 ≤ H) :
    let s := coreAt ctol c f g first k
    0 ≤ s.tprev ∧ φ s.solver = F (φ s.y) ∧
    ‖φ s.y - X s.tprev‖ ≤ (η + rkEps A β L M H * s.tprev) * Real.exp (L * s.tprev) ∧
    ∀ p ∈ keptRev (c.t0, c.y0) (coreAt ctol c f g first) k,
      0 ≤ p.1 ∧ p.1 ≤ c.t1 ∧ ‖φ p.2 - X p.1‖ ≤ (η + rkEps A β L M H * p.1) * Real.exp (L * p.1) := by
  have h01' : c.t0 < c.t1 := by rw [ht0]; exact h01
  have hε : 0 ≤ rkEps A β L M H := by unfold rkEps; positivity
  have hη : 0 ≤ η := (norm_nonneg _).trans hX0
  induction k with
  | zero =>
    have e : coreAt ctol c f g first 0 = coreInit c f g first := rfl
    have e1 : ‖φ c.y0 - X 0‖ ≤ (η + rkEps A β L M H * 0) * Real.exp (L * 0) := by simpa using hX0
    intro s
    have et : s.tprev = 0 := ht0
    refine ⟨et.ge, ?_, by rw [et]; exact e1, ?_⟩
    · show φ (c.solver.init f c.t0 c.y0) = F (φ c.y0)
      rw [hsolver]; exact hf _ _
    · intro p hp
      simp only [keptRev, List.mem_singleton] at hp
      subst hp
      exact ⟨ht0.ge, by rw [ht0]; exact h01.le, by simp only [ht0]; exact e1⟩
  | succ k ih =>
    have hstep' : (keptRev (c.t0, c.y0) (coreAt ctol c f g first) k).IsChain fun q p => q.1 - p.1 ≤ H := by
      simp only [keptRev] at hstep
      split_ifs at hstep with hkept
      · exact hstep.tail
      · exact hstep
    obtain ⟨i0, i1, i2, i3⟩ := ih (fun j hj => hrun j (by omega)) hstep'
    have hk := hrun k (by omega)
    obtain ⟨hok, ⟨B, hB⟩, -⟩ := trace_inv hc hv h01' hi k fun j hj => hrun j (by omega)
    simp only [running, lt_real, Bool.and_eq_true, decide_eq_true_eq] at hk
    obtain ⟨n1, n2⟩ := hok.next hk.1
    have esucc := coreAt_succ ctol c f g first k
    set s := coreAt ctol c f g first k with hsdef
    intro s'
    have es' : s' = coreStep ctol c f g s := esucc
    cases ha : (c.stepsize_controller.adapt s.tprev s.tnext s.y (c.solver.step f s.tprev s.tnext s.y s.solver).1
        (c.solver.step f s.tprev s.tnext s.y s.solver).2.2.1 s.ctrl).1 with
    | false =>
      obtain ⟨r1, r2⟩ := hv.reject n1 hok.ctrl ha
      have e1 : s'.tprev = s.tprev := by
        rw [es']; unfold coreStep; dsimp only; rw [if_neg (by rw [ha]; simp)]
        show jmin _ _ = _
        rw [jmin_real, r1, min_eq_left hk.1.le]
      have e2 : s'.y = s.y := by
        rw [es']; unfold coreStep; dsimp only; rw [if_neg (by rw [ha]; simp)]
      have e3 : s'.solver = s.solver := by
        rw [es']; unfold coreStep; dsimp only; rw [if_neg (by rw [ha]; simp)]
      have e4 : s'.kept = false := by
        rw [es']; unfold coreStep; dsimp only; rw [if_neg (by rw [ha]; simp)]
      refine ⟨by rw [e1]; exact i0, by rw [e2, e3]; exact i1, by rw [e1, e2]; exact i2, ?_⟩
      intro p hp
      have : keptRev (c.t0, c.y0) (coreAt ctol c f g first) (k + 1) = keptRev (c.t0, c.y0) (coreAt ctol c f g first) k := by
        simp only [keptRev]; rw [if_neg]; rw [show (coreAt ctol c f g first (k + 1)).kept = false from e4]; simp
      rw [this] at hp
      exact i3 p hp
    | true =>
      obtain ⟨r1, r2⟩ := hv.keep n1 hok.ctrl ha
      have e1 : s'.tprev = s.tnext := by
        rw [es']; unfold coreStep; dsimp only; rw [if_pos ha]
        show jmin _ _ = _
        rw [jmin_real, r1, min_eq_left n2]
      have e2 : s'.y = (rkStages f s.tprev (s.tnext - s.tprev) s.y tb.rows [s.solver] s.y s.solver).1 := by
        rw [es']; unfold coreStep; dsimp only; rw [if_pos ha]
        show (c.solver.step f s.tprev s.tnext s.y s.solver).1 = _
        rw [hsolver]; rfl
      have e3 : s'.solver = (rkStages f s.tprev (s.tnext - s.tprev) s.y tb.rows [s.solver] s.y s.solver).2 := by
        rw [es']; unfold coreStep; dsimp only; rw [if_pos ha]
        show (c.solver.step f s.tprev s.tnext s.y s.solver).2.2.2 = _
        rw [hsolver]; rfl
      have e4 : s'.kept = true := by
        rw [es']; unfold coreStep; dsimp only; rw [if_pos ha]
      have hkr : keptRev (c.t0, c.y0) (coreAt ctol c f g first) (k + 1)
          = (s'.tprev, s'.y) :: keptRev (c.t0, c.y0) (coreAt ctol c f g first) k := by
        simp only [keptRev]; rw [if_pos]; exact e4
      have hs : s.tnext - s.tprev ≤ H := by
        rw [hkr, hB] at hstep
        have := (List.isChain_cons_cons.1 hstep).1
        rw [← e1]; exact this
      have em := rkStages_map hadd hsmul hf s.tprev (s.tnext - s.tprev) s.y tb.rows [s.solver] s.y s.solver
      rw [← e2, ← e3, List.map_singleton, i1] at em
      have hmono : ∀ t, 0 ≤ t → t ≤ c.t1 →
          (η + rkEps A β L M H * t) * Real.exp (L * t) ≤ (η + rkEps A β L M H * c.t1) * Real.exp (L * c.t1) := by
        intro t ht htt
        gcongr
      have hsub : ∀ u ∈ Set.Icc s.tprev (s.tprev + (s.tnext - s.tprev)), u ∈ Set.Icc 0 c.t1 := fun u hu =>
        ⟨i0.trans hu.1, by linarith [hu.2]⟩
      have hin : s.tprev ∈ Set.Icc 0 c.t1 := ⟨i0, hk.1.le⟩
      obtain ⟨b1, b2⟩ := step_error (F := F) (X := X) (A := A) (β := β) (L := L) (M := M) (ρ := ρ) (t := s.tprev)
        (h := s.tnext - s.tprev) (H := H) (y := φ s.y) (by linarith) hs hA hL hM
        (fun u hu => (hX.sol u (hsub u hu)).mono fun v hv => hsub v hv)
        (fun u hu => hX.bd u (hsub u hu)) (hX.lip _ hin) (i2.trans ((hmono _ i0 hk.1.le).trans h3)) h1 h2 hne hR
        (φ s.y) (F (φ s.y))
      rw [← em] at b1 b2
      have hb : ‖φ s'.y - X s'.tprev‖ ≤ (η + rkEps A β L M H * s'.tprev) * Real.exp (L * s'.tprev) := by
        rw [e1]
        have b1' : ‖φ s'.y - X s.tnext‖ ≤ (1 + L * (s.tnext - s.tprev)) * ‖φ s.y - X s.tprev‖
            + (s.tnext - s.tprev) * rkEps A β L M H := by
          have : s.tprev + (s.tnext - s.tprev) = s.tnext := by ring
          rw [this] at b1; exact b1
        have hg := growth (L := L) (ε := rkEps A β L M H) (t := s.tprev) (h := s.tnext - s.tprev) hL hε hη i0 (by linarith)
        have e5 : s.tprev + (s.tnext - s.tprev) = s.tnext := by ring
        rw [e5] at hg
        refine b1'.trans (le_trans ?_ hg)
        have : 0 ≤ 1 + L * (s.tnext - s.tprev) := by
          have := mul_nonneg hL (by linarith : 0 ≤ s.tnext - s.tprev); linarith
        have := mul_le_mul_of_nonneg_left i2 this
        linarith
      refine ⟨by rw [e1]; linarith, b2, hb, ?_⟩
      intro p hp
      rw [hkr] at hp
      rcases List.mem_cons.1 hp with rfl | hp
      · exact ⟨by show 0 ≤ s'.tprev; rw [e1]; linarith, by show s'.tprev ≤ c.t1; rw [e1]; exact n2, hb⟩
      · exact i3 p hp

end
end Adx
