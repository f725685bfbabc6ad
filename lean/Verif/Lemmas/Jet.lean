import Verif.Spec.Jet
import Verif.Lemmas.Dual
import Mathlib.Analysis.Calculus.ContDiff.Operations
import Mathlib.Analysis.SpecialFunctions.Trigonometric.DerivHyp
import Mathlib.Analysis.SpecialFunctions.Trigonometric.InverseDeriv
import Mathlib.Analysis.SpecialFunctions.Sqrt
import Mathlib.Analysis.SpecialFunctions.Log.Deriv
import Mathlib.Analysis.SpecialFunctions.Complex.LogDeriv
import Mathlib.Analysis.SpecialFunctions.Pow.Deriv

/-! # The rules of nested forward mode are right to every order -/

namespace Adx
namespace Spec
open Filter Topology
open scoped ContDiff

variable {E : Type} [NormedAddCommGroup E] [NormedSpace ℝ E]
variable {v : ℕ → E} {x : E} {n : ℕ} {F G H : E → ℝ} {w : E}

theorem smooth_along (h : ContDiffAt ℝ ∞ F x) (w : E) : ContDiffAt ℝ ∞ (along w F) x :=
  (h.fderiv_right (m := ∞) (by simp)).clm_apply contDiffAt_const

theorem smooth_ev (h : ContDiffAt ℝ ∞ F x) : ∀ᶠ y in 𝓝 x, DifferentiableAt ℝ F y := by
  have h1 : ContDiffAt ℝ 1 F x := h.of_le (by exact_mod_cast le_top)
  filter_upwards [h1.eventually (by simp)] with y hy
  exact hy.differentiableAt (by simp)

theorem along_congr (h : F =ᶠ[𝓝 x] G) (w : E) : along w F =ᶠ[𝓝 x] along w G := by
  filter_upwards [h.fderiv (𝕜 := ℝ)] with y hy
  simp only [along, hy]

theorem Carries.congr {d : DualN n} (h : Carries v x n F d) (hF : G =ᶠ[𝓝 x] F) : Carries v x n G d := by
  induction n generalizing F G with
  | zero => exact Eq.trans h hF.self_of_nhds.symm
  | succ n ih =>
    refine ⟨ih h.1 hF, ?_⟩
    have h2 := h.2
    split at h2
    · exact ih h2 (along_congr hF _)
    · exact (along_congr hF _).trans h2

/-- Tangents, with the symbolic zero. -/
def CarriesO (v : ℕ → E) (x : E) (n : ℕ) (F : E → ℝ) : Option (DualN n) → Prop
  | some g => Carries v x n F g
  | none => F =ᶠ[𝓝 x] fun _ => 0

theorem carries_succ {d : Dual (DualN n)} : Carries v x (n + 1) F d ↔ Carries v x n F d.val ∧ CarriesO v x n (along (v n) F) d.tan := by
  obtain ⟨a, b⟩ := d
  cases b <;> rfl

theorem CarriesO.congr {d : Option (DualN n)} (h : CarriesO v x n F d) (hF : G =ᶠ[𝓝 x] F) : CarriesO v x n G d := by
  cases d with
  | none => exact hF.trans h
  | some g => exact Carries.congr h hF

theorem CarriesO.map {d : Option (DualN n)} (h : CarriesO v x n F d) {f : DualN n → DualN n}
    (h1 : ∀ g, Carries v x n F g → Carries v x n H (f g)) (h2 : F =ᶠ[𝓝 x] (fun _ => 0) → H =ᶠ[𝓝 x] fun _ => 0) :
    CarriesO v x n H (d.map f) := by
  cases d with
  | none => exact h2 h
  | some g => exact h1 g h

/-- Derivative along a direction from the rule for curves. -/
theorem along_of_tracks {y : E} (hH : DifferentiableAt ℝ H y) {d : Dual ℝ} (ht : Tracks (fun t => H (y + t • w)) 0 d) :
    along w H y = Dual.dot d := by
  have h1 : HasDerivAt (fun t : ℝ => y + t • w) w 0 := by
    simpa using ((hasDerivAt_id (0 : ℝ)).smul_const w).const_add y
  have h2 : HasFDerivAt H (fderiv ℝ H y) (y + (0 : ℝ) • w) := by simpa using hH.hasFDerivAt
  exact (h2.comp_hasDerivAt (0 : ℝ) h1).unique ht.deriv

theorem along_line {y : E} (hF : DifferentiableAt ℝ F y) (w : E) :
    Tracks (fun t => F (y + t • w)) 0 ⟨F y, some (along w F y)⟩ := by
  refine ⟨by simp, ?_⟩
  have h1 : HasDerivAt (fun t : ℝ => y + t • w) w 0 := by
    simpa using ((hasDerivAt_id (0 : ℝ)).smul_const w).const_add y
  have h2 : HasFDerivAt F (fderiv ℝ F y) (y + (0 : ℝ) • w) := by simpa using hF.hasFDerivAt
  exact h2.comp_hasDerivAt (0 : ℝ) h1

/-- What has to be shown at each level. -/
structure Good (v : ℕ → E) (x : E) (n : ℕ) : Prop where
  nat : ∀ k : ℕ, Carries v x n (fun _ => (k : ℝ)) (k : DualN n)
  pi : Carries v x n (fun _ => Real.pi) (JFun.pi : DualN n)
  add : ∀ {F G} {a b : DualN n}, ContDiffAt ℝ ∞ F x → ContDiffAt ℝ ∞ G x → Carries v x n F a → Carries v x n G b →
    Carries v x n (fun y => F y + G y) (a + b)
  sub : ∀ {F G} {a b : DualN n}, ContDiffAt ℝ ∞ F x → ContDiffAt ℝ ∞ G x → Carries v x n F a → Carries v x n G b →
    Carries v x n (fun y => F y - G y) (a - b)
  neg : ∀ {F} {a : DualN n}, ContDiffAt ℝ ∞ F x → Carries v x n F a → Carries v x n (fun y => -F y) (-a)
  mul : ∀ {F G} {a b : DualN n}, ContDiffAt ℝ ∞ F x → ContDiffAt ℝ ∞ G x → Carries v x n F a → Carries v x n G b →
    Carries v x n (fun y => F y * G y) (a * b)
  div : ∀ {F G} {a b : DualN n}, ContDiffAt ℝ ∞ F x → ContDiffAt ℝ ∞ G x → G x ≠ 0 → Carries v x n F a →
    Carries v x n G b → Carries v x n (fun y => F y / G y) (a / b)
  pow : ∀ {F} {a : DualN n} (k : ℕ), ContDiffAt ℝ ∞ F x → Carries v x n F a → Carries v x n (fun y => F y ^ k) (a ^ k)
  sqrt : ∀ {F} {a : DualN n}, ContDiffAt ℝ ∞ F x → 0 < F x → Carries v x n F a →
    Carries v x n (fun y => Real.sqrt (F y)) (JFun.sqrt a)
  cbrt : ∀ {F} {a : DualN n}, ContDiffAt ℝ ∞ F x → 0 < F x → Carries v x n F a →
    Carries v x n (fun y => realCbrt (F y)) (JFun.cbrt a)
  sin : ∀ {F} {a : DualN n}, ContDiffAt ℝ ∞ F x → Carries v x n F a → Carries v x n (fun y => Real.sin (F y)) (JFun.sin a)
  cos : ∀ {F} {a : DualN n}, ContDiffAt ℝ ∞ F x → Carries v x n F a → Carries v x n (fun y => Real.cos (F y)) (JFun.cos a)
  sinh : ∀ {F} {a : DualN n}, ContDiffAt ℝ ∞ F x → Carries v x n F a →
    Carries v x n (fun y => Real.sinh (F y)) (JFun.sinh a)
  cosh : ∀ {F} {a : DualN n}, ContDiffAt ℝ ∞ F x → Carries v x n F a →
    Carries v x n (fun y => Real.cosh (F y)) (JFun.cosh a)
  log : ∀ {F} {a : DualN n}, ContDiffAt ℝ ∞ F x → F x ≠ 0 → Carries v x n F a →
    Carries v x n (fun y => Real.log (F y)) (JFun.log a)
  arccos : ∀ {F} {a : DualN n}, ContDiffAt ℝ ∞ F x → -1 < F x → F x < 1 → Carries v x n F a →
    Carries v x n (fun y => Real.arccos (F y)) (JFun.arccos a)
  arctan2 : ∀ {F G} {a b : DualN n}, ContDiffAt ℝ ∞ F x → ContDiffAt ℝ ∞ G x → (0 < G x ∨ F x ≠ 0) → Carries v x n F a →
    Carries v x n G b → Carries v x n (fun y => Complex.arg ⟨G y, F y⟩) (JFun.arctan2 a b)
  lt : ∀ {F G} {a b : DualN n}, Carries v x n F a → Carries v x n G b → JFun.lt a b = decide (F x < G x)
  abs : ∀ {F} {a : DualN n}, ContDiffAt ℝ ∞ F x → F x ≠ 0 → Carries v x n F a →
    Carries v x n (fun y => |F y|) (JFun.abs a)
  maximum : ∀ {F G} {a b : DualN n}, ContDiffAt ℝ ∞ F x → ContDiffAt ℝ ∞ G x → F x ≠ G x → Carries v x n F a →
    Carries v x n G b → Carries v x n (fun y => max (F y) (G y)) (JFun.maximum a b)
  floor : ∀ {F : E → ℝ} {a : DualN n}, ContDiffAt ℝ ∞ F x → F x ≠ ⌊F x⌋ → Carries v x n F a →
    Carries v x n (fun y => (⌊F y⌋ : ℝ)) (JFun.floor a)
  onesLike : ∀ a : DualN n, Carries v x n (fun _ => 1) (JFun.onesLike a)
  item : ∀ {F} {a : DualN n}, Carries v x n F a → Carries v x n (fun _ => F x) (JFun.item a)

/-! ### Smoothness of the primitives -/

theorem smooth_cbrt (h : ContDiffAt ℝ ∞ F x) (h0 : 0 < F x) : ContDiffAt ℝ ∞ (fun y => realCbrt (F y)) x := by
  refine (h.rpow_const_of_ne (p := 1 / 3) h0.ne').congr_of_eventuallyEq ?_
  filter_upwards [h.continuousAt.eventually (lt_mem_nhds h0)] with y hy
  exact if_pos hy.le

theorem smooth_arccos (h : ContDiffAt ℝ ∞ F x) (h0 : -1 < F x) (h1 : F x < 1) :
    ContDiffAt ℝ ∞ (fun y => Real.arccos (F y)) x :=
  (Real.contDiffAt_arccos h0.ne' h1.ne).comp x h

theorem smooth_arctan2 (h : ContDiffAt ℝ ∞ F x) (h' : ContDiffAt ℝ ∞ G x) (h0 : 0 < G x ∨ F x ≠ 0) :
    ContDiffAt ℝ ∞ (fun y => Complex.arg ⟨G y, F y⟩) x := by
  have hz : (⟨G x, F x⟩ : ℂ) ∈ Complex.slitPlane := h0
  have e1 : (fun y => (⟨G y, F y⟩ : ℂ)) = fun y => Complex.ofRealCLM (G y) + Complex.ofRealCLM (F y) * Complex.I := by
    funext y; apply Complex.ext <;> simp
  have hc : ContDiffAt ℝ ∞ (fun y => (⟨G y, F y⟩ : ℂ)) x := by
    rw [e1]
    exact (Complex.ofRealCLM.contDiff.contDiffAt.comp x h').add
      ((Complex.ofRealCLM.contDiff.contDiffAt.comp x h).mul contDiffAt_const)
  have h1 : ContDiffAt ℝ ∞ Complex.log ⟨G x, F x⟩ := (Complex.contDiffAt_log hz).restrict_scalars ℝ
  have hl : ContDiffAt ℝ ∞ (fun y => Complex.log ⟨G y, F y⟩) x :=
    ContDiffAt.comp (g := Complex.log) x h1 hc
  have hi := Complex.imCLM.contDiff.contDiffAt.comp x hl
  exact hi.congr_of_eventuallyEq (.of_eq (by funext y; simp [Complex.log_im]))

theorem smooth_abs (h : ContDiffAt ℝ ∞ F x) (h0 : F x ≠ 0) : ContDiffAt ℝ ∞ (fun y => |F y|) x := by
  rcases lt_or_gt_of_ne h0 with hn | hp
  · refine h.neg.congr_of_eventuallyEq ?_
    filter_upwards [h.continuousAt.eventually (gt_mem_nhds hn)] with y hy
    exact abs_of_neg hy
  · refine h.congr_of_eventuallyEq ?_
    filter_upwards [h.continuousAt.eventually (lt_mem_nhds hp)] with y hy
    exact abs_of_pos hy

theorem floor_ev (h : ContDiffAt ℝ ∞ F x) (h0 : F x ≠ ⌊F x⌋) :
    (fun y => (⌊F y⌋ : ℝ)) =ᶠ[𝓝 x] fun _ => (⌊F x⌋ : ℝ) := by
  have h1 : (⌊F x⌋ : ℝ) < F x := lt_of_le_of_ne (Int.floor_le _) h0.symm
  filter_upwards [h.continuousAt.eventually (Ioo_mem_nhds h1 (Int.lt_floor_add_one (F x)))] with y hy
  congr 1
  exact Int.floor_eq_iff.2 ⟨hy.1.le, hy.2⟩

theorem max_ev (h : ContDiffAt ℝ ∞ F x) (h' : ContDiffAt ℝ ∞ G x) (h0 : G x < F x) :
    (fun y => max (F y) (G y)) =ᶠ[𝓝 x] F := by
  filter_upwards [h'.continuousAt.eventually_lt h.continuousAt h0] with y hy
  exact max_eq_left hy.le

theorem max_ev' (h : ContDiffAt ℝ ∞ F x) (h' : ContDiffAt ℝ ∞ G x) (h0 : F x < G x) :
    (fun y => max (F y) (G y)) =ᶠ[𝓝 x] G := by
  filter_upwards [h.continuousAt.eventually_lt h'.continuousAt h0] with y hy
  exact max_eq_right hy.le

theorem good_zero (v : ℕ → E) (x : E) : Good v x 0 where
  nat _ := rfl
  pi := rfl
  add _ _ h h' := congrArg₂ (· + ·) (α := ℝ) (β := ℝ) h h'
  sub _ _ h h' := congrArg₂ (· - ·) (α := ℝ) (β := ℝ) h h'
  neg _ h := congrArg (- ·) (α := ℝ) h
  mul _ _ h h' := congrArg₂ (· * ·) (α := ℝ) (β := ℝ) h h'
  div _ _ _ h h' := congrArg₂ (· / ·) (α := ℝ) (β := ℝ) h h'
  pow k _ h := congrArg (· ^ k) (α := ℝ) h
  sqrt _ _ h := congrArg Real.sqrt h
  cbrt _ _ h := congrArg realCbrt h
  sin _ h := congrArg Real.sin h
  cos _ h := congrArg Real.cos h
  sinh _ h := congrArg Real.sinh h
  cosh _ h := congrArg Real.cosh h
  log _ _ h := congrArg Real.log h
  arccos _ _ _ h := congrArg Real.arccos h
  arctan2 _ _ _ h h' := congrArg₂ (fun y x => Complex.arg ⟨x, y⟩) h h'
  lt h h' := congrArg₂ (fun a b : ℝ => decide (a < b)) h h'
  abs _ _ h := congrArg (fun a : ℝ => |a|) h
  maximum _ _ _ h h' := congrArg₂ (max (α := ℝ)) h h'
  floor _ _ h := congrArg (fun a : ℝ => (⌊a⌋ : ℝ)) h
  onesLike _ := rfl
  item h := h

theorem along_const (c : ℝ) (w : E) : along w (fun _ => c) =ᶠ[𝓝 x] fun _ => (0 : ℝ) := by
  refine .of_eq ?_
  funext y; simp [along]

theorem CarriesO.add (g : Good v x n) {a b : Option (DualN n)} (hF : ContDiffAt ℝ ∞ F x) (hG : ContDiffAt ℝ ∞ G x)
    (ha : CarriesO v x n F a) (hb : CarriesO v x n G b) : CarriesO v x n (fun y => F y + G y) (Dual.addTan a b) := by
  cases a with
  | none =>
    have h : (fun y => F y + G y) =ᶠ[𝓝 x] G := by
      filter_upwards [ha] with y hy
      rw [hy, zero_add]
    exact hb.congr h
  | some a =>
    cases b with
    | none =>
      have h : (fun y => F y + G y) =ᶠ[𝓝 x] F := by
        filter_upwards [hb] with y hy
        rw [hy, add_zero]
      exact CarriesO.congr (d := some a) ha h
    | some b => exact g.add hF hG ha hb

/-- A tangent multiplied by a factor. -/
theorem CarriesO.scale (g : Good v x n) {a : Option (DualN n)} (hF : ContDiffAt ℝ ∞ F x) (hG : ContDiffAt ℝ ∞ G x)
    (ha : CarriesO v x n F a) {b : DualN n} (hb : Carries v x n G b) :
    CarriesO v x n (fun y => F y * G y) (a.map fun t => t * b) :=
  ha.map (fun _ ht => g.mul hF hG ht hb) (fun h => by
    filter_upwards [h] with y hy
    rw [hy, zero_mul])

theorem CarriesO.neg (g : Good v x n) {a : Option (DualN n)} (hF : ContDiffAt ℝ ∞ F x)
    (ha : CarriesO v x n F a) : CarriesO v x n (fun y => -F y) (a.map fun t => -t) :=
  ha.map (fun _ ht => g.neg hF ht) (fun h => by
    filter_upwards [h] with y hy
    rw [hy, neg_zero])

/-- One argument: the value from the level below, the tangent from the chain rule `D`. -/
theorem succ_of {d : Dual (DualN n)} (hH : Carries v x n H d.val) {D : E → ℝ} (hD : CarriesO v x n D d.tan)
    (hr : along (v n) H =ᶠ[𝓝 x] D) : Carries v x (n + 1) H d := carries_succ.2 ⟨hH, hD.congr hr⟩

theorem rule1 {φ : ℝ → ℝ} {φ' : Dual ℝ → Dual ℝ} (hF : ContDiffAt ℝ ∞ F x) (hH : ContDiffAt ℝ ∞ (fun y => φ (F y)) x)
    {P : ℝ → Prop} (hP : ∀ᶠ y in 𝓝 x, P (F y))
    (ht : ∀ (g : ℝ → ℝ) (a : Dual ℝ), Tracks g 0 a → P (g 0) → Tracks (fun t => φ (g t)) 0 (φ' a)) :
    along w (fun y => φ (F y)) =ᶠ[𝓝 x] fun y => Dual.dot (φ' ⟨F y, some (along w F y)⟩) := by
  filter_upwards [smooth_ev hF, smooth_ev hH, hP] with y h1 h2 h3
  exact along_of_tracks h2 (ht _ _ (along_line h1 w) (by simpa using h3))

theorem rule2 {φ : ℝ → ℝ → ℝ} {φ' : Dual ℝ → Dual ℝ → Dual ℝ} (hF : ContDiffAt ℝ ∞ F x) (hG : ContDiffAt ℝ ∞ G x)
    (hH : ContDiffAt ℝ ∞ (fun y => φ (F y) (G y)) x) {P : ℝ → ℝ → Prop} (hP : ∀ᶠ y in 𝓝 x, P (F y) (G y))
    (ht : ∀ (g h : ℝ → ℝ) (a b : Dual ℝ), Tracks g 0 a → Tracks h 0 b → P (g 0) (h 0) →
      Tracks (fun t => φ (g t) (h t)) 0 (φ' a b)) :
    along w (fun y => φ (F y) (G y)) =ᶠ[𝓝 x]
      fun y => Dual.dot (φ' ⟨F y, some (along w F y)⟩ ⟨G y, some (along w G y)⟩) := by
  filter_upwards [smooth_ev hF, smooth_ev hG, smooth_ev hH, hP] with y h1 h2 h3 h4
  exact along_of_tracks h3 (ht _ _ _ _ (along_line h1 w) (along_line h2 w) (by simpa using h4))

theorem ev_ne (h : ContDiffAt ℝ ∞ F x) {c : ℝ} (h0 : F x ≠ c) : ∀ᶠ y in 𝓝 x, F y ≠ c :=
  h.continuousAt.eventually_ne h0
theorem ev_pos (h : ContDiffAt ℝ ∞ F x) (h0 : 0 < F x) : ∀ᶠ y in 𝓝 x, 0 < F y :=
  h.continuousAt.eventually (lt_mem_nhds h0)

theorem good_succ (g : Good v x n) : Good v x (n + 1) where
  nat k := carries_succ.2 ⟨g.nat k, along_const _ _⟩
  pi := carries_succ.2 ⟨g.pi, along_const _ _⟩
  add {F G a b} hF hG ha hb := by
    obtain ⟨a1, a2⟩ := carries_succ.1 ha
    obtain ⟨b1, b2⟩ := carries_succ.1 hb
    exact succ_of (g.add hF hG a1 b1) (CarriesO.add g (smooth_along hF _) (smooth_along hG _) a2 b2)
      (rule2 (φ' := (· + ·)) (P := fun _ _ => True) hF hG (hF.add hG) (by simp) fun _ _ _ _ h1 h2 _ => h1.add h2)
  sub {F G a b} hF hG ha hb := by
    obtain ⟨a1, a2⟩ := carries_succ.1 ha
    obtain ⟨b1, b2⟩ := carries_succ.1 hb
    exact succ_of (g.sub hF hG a1 b1)
      (CarriesO.add g (smooth_along hF _) (smooth_along hG _).neg a2 (CarriesO.neg g (smooth_along hG _) b2))
      (rule2 (φ' := (· - ·)) (P := fun _ _ => True) hF hG (hF.sub hG) (by simp) fun _ _ _ _ h1 h2 _ => h1.sub h2)
  neg {F a} hF ha := by
    obtain ⟨a1, a2⟩ := carries_succ.1 ha
    exact succ_of (g.neg hF a1) (CarriesO.neg g (smooth_along hF _) a2)
      (rule1 (φ' := (- ·)) (P := fun _ => True) hF hF.neg (by simp) fun _ _ h1 _ => h1.neg)
  mul {F G a b} hF hG ha hb := by
    obtain ⟨a1, a2⟩ := carries_succ.1 ha
    obtain ⟨b1, b2⟩ := carries_succ.1 hb
    have sF := smooth_along hF (v n)
    have sG := smooth_along hG (v n)
    refine succ_of (g.mul hF hG a1 b1)
      (CarriesO.add g (sF.mul hG) (hF.mul sG) (CarriesO.scale g sF hG a2 b1) (b2.map (H := fun y => F y * along (v n) G y) (fun _ ht => g.mul hF sG a1 ht) ?_))
      (rule2 (φ' := (· * ·)) (P := fun _ _ => True) hF hG (hF.mul hG) (by simp) fun _ _ _ _ h1 h2 _ => h1.mul h2)
    intro h
    filter_upwards [h] with y hy
    rw [hy, mul_zero]
  div {F G a b} hF hG h0 ha hb := by
    obtain ⟨a1, a2⟩ := carries_succ.1 ha
    obtain ⟨b1, b2⟩ := carries_succ.1 hb
    have sF := smooth_along hF (v n)
    have sG := smooth_along hG (v n)
    have hG2 : ContDiffAt ℝ ∞ (fun y => ((1 : ℕ) : ℝ) / G y ^ 2) x :=
      contDiffAt_const.div (hG.pow 2) (pow_ne_zero 2 h0)
    refine succ_of (g.div hF hG h0 a1 b1)
      (CarriesO.add g (F := fun y => along (v n) F y / G y)
        (G := fun y => -along (v n) G y * F y * (((1 : ℕ) : ℝ) / G y ^ 2)) (sF.div hG h0) ((sG.neg.mul hF).mul hG2)
        (a2.map (fun _ ht => g.div sF hG h0 ht b1) ?_)
        (b2.map (fun _ ht => g.mul (sG.neg.mul hF) hG2 (g.mul sG.neg hF (g.neg sG ht) a1)
          (g.div contDiffAt_const (hG.pow 2) (pow_ne_zero 2 h0) (g.nat 1) (g.pow 2 hG b1))) ?_))
      (rule2 (φ' := (· / ·)) (P := fun _ b => b ≠ 0) hF hG (hF.div hG h0) (ev_ne hG h0)
        fun _ _ _ _ h1 h2 h3 => h1.div h2 h3)
    · intro h
      filter_upwards [h] with y hy
      rw [hy, zero_div]
    · intro h
      filter_upwards [h] with y hy
      rw [hy]; simp
  pow {F a} k hF ha := by
    obtain ⟨a1, a2⟩ := carries_succ.1 ha
    have sF := smooth_along hF (v n)
    have hr := rule1 (w := v n) (φ := fun r => r ^ k) (φ' := fun d => d ^ k) (P := fun _ => True) hF (hF.pow k) (by simp) fun _ _ h1 _ => h1.pow k
    rcases Nat.eq_zero_or_pos k with rfl | hk
    · refine succ_of (D := fun _ => 0) (g.pow 0 hF a1) (a2.map (fun _ _ => ?_) (fun _ => .refl _ _)) (hr.trans (.of_eq ?_))
      · simpa using g.nat 0
      · funext y
        show ((some (along (v n) F y)).map fun t : ℝ => if (0 : ℕ) = 0 then ((0 : ℕ) : ℝ) else t * (((0 : ℕ) : ℝ) * F y ^ (0 - 1))).getD 0 = 0
        simp
    · refine succ_of (g.pow k hF a1) (D := fun y => along (v n) F y * ((k : ℝ) * F y ^ (k - 1)))
        (a2.map (fun t ht => ?_) ?_) (hr.trans (.of_eq ?_))
      · simp only [hk.ne', if_false]
        exact g.mul sF (contDiffAt_const.mul (hF.pow _)) ht (g.mul contDiffAt_const (hF.pow _) (g.nat k) (g.pow _ hF a1))
      · intro h
        filter_upwards [h] with y hy
        rw [hy, zero_mul]
      · funext y
        show ((some (along (v n) F y)).map fun t : ℝ => if k = 0 then ((0 : ℕ) : ℝ) else t * ((k : ℝ) * F y ^ (k - 1))).getD 0 = _
        simp [hk.ne']
  sqrt {F a} hF h0 ha := by
    obtain ⟨a1, a2⟩ := carries_succ.1 ha
    have sF := smooth_along hF (v n)
    have hq := hF.sqrt h0.ne'
    have hq0 := (Real.sqrt_pos.2 h0).ne'
    have h12 : ContDiffAt ℝ ∞ (fun y => ((1 : ℕ) : ℝ) / ((2 : ℕ) : ℝ) / Real.sqrt (F y)) x := contDiffAt_const.div hq hq0
    exact succ_of (g.sqrt hF h0 a1)
      (CarriesO.scale g sF h12 a2 (g.div contDiffAt_const hq hq0
        (g.div contDiffAt_const contDiffAt_const (by norm_num) (g.nat 1) (g.nat 2)) (g.sqrt hF h0 a1)))
      (rule1 (φ' := JFun.sqrt) (P := fun r => 0 < r) hF hq (ev_pos hF h0) fun _ _ h1 h2 => h1.sqrt h2)
  cbrt {F a} hF h0 ha := by
    obtain ⟨a1, a2⟩ := carries_succ.1 ha
    have sF := smooth_along hF (v n)
    have hq := smooth_cbrt hF h0
    have hq0 : realCbrt (F x) ^ 2 ≠ 0 := by
      rw [realCbrt, if_pos h0.le]; positivity
    have h1 : ContDiffAt ℝ ∞ (fun y => ((1 : ℕ) : ℝ) / realCbrt (F y) ^ 2) x := contDiffAt_const.div (hq.pow 2) hq0
    have h2 : ContDiffAt ℝ ∞ (fun y => ((1 : ℕ) : ℝ) / ((3 : ℕ) : ℝ) * (((1 : ℕ) : ℝ) / realCbrt (F y) ^ 2)) x :=
      contDiffAt_const.mul h1
    exact succ_of (g.cbrt hF h0 a1)
      (CarriesO.scale g sF h2 a2 (g.mul contDiffAt_const h1
        (g.div contDiffAt_const contDiffAt_const (by norm_num) (g.nat 1) (g.nat 3))
        (g.div contDiffAt_const (hq.pow 2) hq0 (g.nat 1) (g.pow 2 hq (g.cbrt hF h0 a1)))))
      (rule1 (φ' := JFun.cbrt) (P := fun r => 0 < r) hF hq (ev_pos hF h0) fun _ _ h1 h2 => h1.cbrt h2)
  sin {F a} hF ha := by
    obtain ⟨a1, a2⟩ := carries_succ.1 ha
    have sF := smooth_along hF (v n)
    exact succ_of (g.sin hF a1) (CarriesO.scale g sF hF.cos a2 (g.cos hF a1))
      (rule1 (φ' := JFun.sin) (P := fun _ => True) hF hF.sin (by simp) fun _ _ h1 _ => h1.sin)
  cos {F a} hF ha := by
    obtain ⟨a1, a2⟩ := carries_succ.1 ha
    have sF := smooth_along hF (v n)
    exact succ_of (g.cos hF a1) (a2.map (H := fun y => -(along (v n) F y * Real.sin (F y)))
        (fun _ ht => g.neg (sF.mul hF.sin) (g.mul sF hF.sin ht (g.sin hF a1))) (fun h => by
          filter_upwards [h] with y hy
          rw [hy]; simp))
      (rule1 (φ' := JFun.cos) (P := fun _ => True) hF hF.cos (by simp) fun _ _ h1 _ => h1.cos)
  sinh {F a} hF ha := by
    obtain ⟨a1, a2⟩ := carries_succ.1 ha
    have sF := smooth_along hF (v n)
    exact succ_of (g.sinh hF a1) (CarriesO.scale g sF hF.cosh a2 (g.cosh hF a1))
      (rule1 (φ' := JFun.sinh) (P := fun _ => True) hF hF.sinh (by simp) fun _ _ h1 _ => h1.sinh)
  cosh {F a} hF ha := by
    obtain ⟨a1, a2⟩ := carries_succ.1 ha
    have sF := smooth_along hF (v n)
    exact succ_of (g.cosh hF a1) (CarriesO.scale g sF hF.sinh a2 (g.sinh hF a1))
      (rule1 (φ' := JFun.cosh) (P := fun _ => True) hF hF.cosh (by simp) fun _ _ h1 _ => h1.cosh)
  log {F a} hF h0 ha := by
    obtain ⟨a1, a2⟩ := carries_succ.1 ha
    have sF := smooth_along hF (v n)
    exact succ_of (g.log hF h0 a1) (a2.map (H := fun y => along (v n) F y / F y) (fun _ ht => g.div sF hF h0 ht a1)
        (fun h => by
          filter_upwards [h] with y hy
          rw [hy]; simp))
      (rule1 (φ' := JFun.log) (P := fun r => r ≠ 0) hF (hF.log h0) (ev_ne hF h0) fun _ _ h1 h2 => h1.log h2)
  arccos {F a} hF h0 h1 ha := by
    obtain ⟨a1, a2⟩ := carries_succ.1 ha
    have sF := smooth_along hF (v n)
    have hs : ContDiffAt ℝ ∞ (fun y => ((1 : ℕ) : ℝ) - F y ^ 2) x := contDiffAt_const.sub (hF.pow 2)
    have hs0 : (0 : ℝ) < ((1 : ℕ) : ℝ) - F x ^ 2 := by
      have : F x ^ 2 < 1 := by nlinarith
      simpa using this
    have hq := hs.sqrt hs0.ne'
    have hq0 := (Real.sqrt_pos.2 hs0).ne'
    have hd : ContDiffAt ℝ ∞ (fun y => ((1 : ℕ) : ℝ) / Real.sqrt (((1 : ℕ) : ℝ) - F y ^ 2)) x := contDiffAt_const.div hq hq0
    exact succ_of (g.arccos hF h0 h1 a1)
      (CarriesO.scale g sF hd.neg a2 (g.neg hd (g.div contDiffAt_const hq hq0 (g.nat 1)
        (g.sqrt hs hs0 (g.sub contDiffAt_const (hF.pow 2) (g.nat 1) (g.pow 2 hF a1))))))
      (rule1 (φ' := JFun.arccos) (P := fun r => r ≠ -1 ∧ r ≠ 1) hF (smooth_arccos hF h0 h1)
        ((ev_ne hF h0.ne').and (ev_ne hF h1.ne)) fun _ _ h1 h2 => h1.arccos h2.1 h2.2)
  arctan2 {F G a b} hF hG h0 ha hb := by
    obtain ⟨a1, a2⟩ := carries_succ.1 ha
    obtain ⟨b1, b2⟩ := carries_succ.1 hb
    have sF := smooth_along hF (v n)
    have sG := smooth_along hG (v n)
    have hs : ContDiffAt ℝ ∞ (fun y => F y ^ 2 + G y ^ 2) x := (hF.pow 2).add (hG.pow 2)
    have hs0 : F x ^ 2 + G x ^ 2 ≠ 0 := by
      rcases h0 with h | h
      · positivity
      · have := sq_pos_of_ne_zero h
        have := sq_nonneg (G x)
        linarith
    have cs := g.add (hF.pow 2) (hG.pow 2) (g.pow 2 hF a1) (g.pow 2 hG b1)
    have hev : ∀ᶠ y in 𝓝 x, (0 < G y ∨ F y ≠ 0) := by
      rcases h0 with h | h
      · exact (ev_pos hG h).mono fun _ hy => Or.inl hy
      · exact (ev_ne hF h).mono fun _ hy => Or.inr hy
    exact succ_of (g.arctan2 hF hG h0 a1 b1)
      (CarriesO.add g (F := fun y => along (v n) F y * (G y / (F y ^ 2 + G y ^ 2)))
        (G := fun y => along (v n) G y * -F y / (F y ^ 2 + G y ^ 2))
        (sF.mul (hG.div hs hs0)) ((sG.mul hF.neg).div hs hs0)
        (CarriesO.scale g sF (hG.div hs hs0) a2 (g.div hG hs hs0 b1 cs))
        (b2.map (fun _ ht => g.div (sG.mul hF.neg) hs hs0 (g.mul sG hF.neg ht (g.neg hF a1)) cs) (fun h => by
          filter_upwards [h] with y hy
          rw [hy]; simp)))
      (rule2 (φ := fun r q => Complex.arg ⟨q, r⟩) (φ' := JFun.arctan2) (P := fun r q => 0 < q ∨ r ≠ 0) hF hG (smooth_arctan2 hF hG h0) hev
        fun _ _ _ _ h1 h2 h3 => h1.arctan2 h2 h3)
  lt {F G a b} ha hb := g.lt (carries_succ.1 ha).1 (carries_succ.1 hb).1
  abs {F a} hF h0 ha := by
    obtain ⟨a1, a2⟩ := carries_succ.1 ha
    have sF := smooth_along hF (v n)
    have l1 : JFun.lt (ℓ 0 : DualN n) (Dual.val a) = decide (((0 : ℕ) : ℝ) < F x) := g.lt (g.nat 0) a1
    have l2 : JFun.lt (Dual.val a) (ℓ 0 : DualN n) = decide (F x < ((0 : ℕ) : ℝ)) := g.lt a1 (g.nat 0)
    have hr := rule1 (w := v n) (φ := fun r => |r|) (φ' := JFun.abs) (P := fun r => r ≠ 0) hF (smooth_abs hF h0) (ev_ne hF h0) fun _ _ h1 h2 => h1.abs h2
    rcases lt_or_gt_of_ne h0 with hn | hp
    · have hs : Dual.sign (Dual.val a) = -(ℓ 1 : DualN n) := by
        simp [Dual.sign, l1, l2, hn, hn.not_gt]
      refine succ_of (g.abs hF h0 a1) (D := fun y => along (v n) F y * -((1 : ℕ) : ℝ)) ?_ (hr.trans ?_)
      · show CarriesO v x n _ (a.tan.map fun t => t * Dual.sign (Dual.val a))
        rw [hs]
        exact CarriesO.scale g sF contDiffAt_const a2 (g.neg contDiffAt_const (g.nat 1))
      · filter_upwards [hF.continuousAt.eventually (gt_mem_nhds hn)] with y hy
        have : Dual.sign (F y) = -1 := by simp [Dual.sign, hy, hy.not_gt]
        show along (v n) F y * Dual.sign (F y) = _
        rw [this]; simp
    · have hs : Dual.sign (Dual.val a) = (ℓ 1 : DualN n) := by
        simp [Dual.sign, l1, hp]
      refine succ_of (g.abs hF h0 a1) (D := fun y => along (v n) F y * ((1 : ℕ) : ℝ)) ?_ (hr.trans ?_)
      · show CarriesO v x n _ (a.tan.map fun t => t * Dual.sign (Dual.val a))
        rw [hs]
        exact CarriesO.scale g sF contDiffAt_const a2 (g.nat 1)
      · filter_upwards [hF.continuousAt.eventually (lt_mem_nhds hp)] with y hy
        have : Dual.sign (F y) = 1 := by simp [Dual.sign, hy]
        show along (v n) F y * Dual.sign (F y) = _
        rw [this]; simp
  maximum {F G a b} hF hG h0 ha hb := by
    obtain ⟨a1, a2⟩ := carries_succ.1 ha
    obtain ⟨b1, b2⟩ := carries_succ.1 hb
    have sF := smooth_along hF (v n)
    have sG := smooth_along hG (v n)
    have l1 : JFun.lt (Dual.val a) (Dual.val b) = decide (F x < G x) := g.lt a1 b1
    have l2 : JFun.lt (Dual.val b) (Dual.val a) = decide (G x < F x) := g.lt b1 a1
    have key : ∀ p q : ℕ, Dual.share (Dual.val a) (Dual.val b) = (Nat.cast p : DualN n) →
        Dual.share (Dual.val b) (Dual.val a) = (Nat.cast q : DualN n) →
        CarriesO v x n (fun y => along (v n) F y * (p : ℝ) + along (v n) G y * (q : ℝ)) (JFun.maximum a b : Dual (DualN n)).tan := by
      intro p q hp hq
      show CarriesO v x n _ (Dual.addTan (a.tan.map fun t => t * Dual.share (Dual.val a) (Dual.val b))
        (b.tan.map fun t => t * Dual.share (Dual.val b) (Dual.val a)))
      rw [hp, hq]
      exact CarriesO.add g (sF.mul contDiffAt_const) (sG.mul contDiffAt_const)
        (CarriesO.scale g sF contDiffAt_const a2 (g.nat p)) (CarriesO.scale g sG contDiffAt_const b2 (g.nat q))
    rcases lt_or_gt_of_ne h0 with h | h
    · refine succ_of (g.maximum hF hG h0 a1 b1) (key 0 1 ?_ ?_) ?_
      · simp [Dual.share, l1, l2, h, h.not_gt]
      · simp [Dual.share, l1, h]
      · refine (along_congr (max_ev' hF hG h) _).trans (.of_eq ?_)
        funext y; simp
    · refine succ_of (g.maximum hF hG h0 a1 b1) (key 1 0 ?_ ?_) ?_
      · simp [Dual.share, l2, h]
      · simp [Dual.share, l1, l2, h, h.not_gt]
      · refine (along_congr (max_ev hF hG h) _).trans (.of_eq ?_)
        funext y; simp
  floor {F a} hF h0 ha :=
    carries_succ.2 ⟨g.floor hF h0 (carries_succ.1 ha).1, (along_congr (floor_ev hF h0) _).trans (along_const _ _)⟩
  onesLike a := carries_succ.2 ⟨g.onesLike _, along_const _ _⟩
  item h := carries_succ.2 ⟨g.item (carries_succ.1 h).1, along_const _ _⟩

theorem good (v : ℕ → E) (x : E) (n : ℕ) : Good v x n := by
  induction n with
  | zero => exact good_zero v x
  | succ n ih => exact good_succ ih

/-- `arctan2` on its cut: all derivatives are those of the branch that is smooth there. -/
theorem carries_arctan2_cut (hF : ContDiffAt ℝ ∞ F x) (hG : ContDiffAt ℝ ∞ G x) (h0 : G x < 0) (h1 : F x = 0)
    {a b : DualN n} (ha : Carries v x n F a) (hb : Carries v x n G b) :
    Carries v x n (fun y => Real.pi + Complex.arg ⟨-G y, -F y⟩) (JFun.arctan2 a b) := by
  induction n with
  | zero =>
    have ha' : a = F x := ha
    have hb' : b = G x := hb
    show Complex.arg ⟨b, a⟩ = Real.pi + Complex.arg ⟨-G x, -F x⟩
    have e2 : (⟨G x, 0⟩ : ℂ) = ((G x : ℝ) : ℂ) := by apply Complex.ext <;> simp
    have e3 : (⟨-G x, -0⟩ : ℂ) = ((-G x : ℝ) : ℂ) := by apply Complex.ext <;> simp
    rw [ha', hb', h1, e2, e3, Complex.arg_ofReal_of_neg h0, Complex.arg_ofReal_of_nonneg (by linarith), add_zero]
  | succ n ih =>
    have g := good v x n
    obtain ⟨a1, a2⟩ := carries_succ.1 ha
    obtain ⟨b1, b2⟩ := carries_succ.1 hb
    have sF := smooth_along hF (v n)
    have sG := smooth_along hG (v n)
    have hs : ContDiffAt ℝ ∞ (fun y => F y ^ 2 + G y ^ 2) x := (hF.pow 2).add (hG.pow 2)
    have hs0 : F x ^ 2 + G x ^ 2 ≠ 0 := by
      rw [h1]; nlinarith
    have cs := g.add (hF.pow 2) (hG.pow 2) (g.pow 2 hF a1) (g.pow 2 hG b1)
    have hH : ContDiffAt ℝ ∞ (fun y => Real.pi + Complex.arg ⟨-G y, -F y⟩) x :=
      contDiffAt_const.add (smooth_arctan2 hF.neg hG.neg (Or.inl (neg_pos.2 h0)))
    have hr := rule2 (w := v n) (φ := fun r q => Real.pi + Complex.arg ⟨-q, -r⟩)
      (φ' := fun a b => ⟨Real.pi, none⟩ + JFun.arctan2 (-a) (-b)) (P := fun _ q => q < 0) hF hG hH
      (hG.continuousAt.eventually (gt_mem_nhds h0))
      fun _ _ _ _ h1 h2 h3 => (Tracks.const Real.pi).add (h1.neg.arctan2 h2.neg (Or.inl (neg_pos.2 h3)))
    refine succ_of (ih a1 b1)
      (CarriesO.add g (F := fun y => along (v n) F y * (G y / (F y ^ 2 + G y ^ 2)))
        (G := fun y => along (v n) G y * -F y / (F y ^ 2 + G y ^ 2))
        (sF.mul (hG.div hs hs0)) ((sG.mul hF.neg).div hs hs0)
        (CarriesO.scale g sF (hG.div hs hs0) a2 (g.div hG hs hs0 b1 cs))
        (b2.map (fun _ ht => g.div (sG.mul hF.neg) hs hs0 (g.mul sG hF.neg ht (g.neg hF a1)) cs) (fun h => by
          filter_upwards [h] with y hy
          rw [hy]; simp)))
      (hr.trans (.of_eq ?_))
    funext y
    show -along (v n) F y * (-G y / ((-F y) ^ 2 + (-G y) ^ 2)) + -along (v n) G y * -(-F y) / ((-F y) ^ 2 + (-G y) ^ 2) = _
    ring

/-! ### The rules, value and smoothness together -/

namespace Jet
variable {g h : E → ℝ} {s : E} {a b : DualN n}

theorem congr (ha : Jet v g s a) (hgh : h =ᶠ[𝓝 s] g) : Jet v h s a :=
  ⟨ha.smooth.congr_of_eventuallyEq hgh, ha.jet.congr hgh⟩

theorem nat (k : ℕ) : Jet v (fun _ => (k : ℝ)) s (k : DualN n) := ⟨contDiffAt_const, (good v s n).nat k⟩

theorem pi : Jet v (fun _ => Real.pi) s (JFun.pi : DualN n) := ⟨contDiffAt_const, (good v s n).pi⟩

theorem const (c : ℝ) : Jet v (fun _ => c) s (DualN.const n c) := by
  refine ⟨contDiffAt_const, ?_⟩
  induction n with
  | zero => rfl
  | succ n ih => exact carries_succ.2 ⟨ih, along_const _ _⟩

/-- A linear coordinate `L`, seeded with its values along the directions. -/
theorem input (L : E →L[ℝ] ℝ) (n : ℕ) : Jet v L s (DualN.input (fun k => L (v k)) (L s) n) := by
  refine ⟨L.contDiff.contDiffAt, ?_⟩
  induction n with
  | zero => rfl
  | succ n ih =>
    refine carries_succ.2 ⟨ih, ?_⟩
    have : along (v n) (L : E → ℝ) = fun _ => L (v n) := by
      funext y; simp [along]
    rw [this]
    exact (const (v := v) (s := s) (n := n) (L (v n))).jet

theorem add (ha : Jet v g s a) (hb : Jet v h s b) : Jet v (fun s => g s + h s) s (a + b) :=
  ⟨ha.smooth.add hb.smooth, (good v s n).add ha.smooth hb.smooth ha.jet hb.jet⟩
theorem sub (ha : Jet v g s a) (hb : Jet v h s b) : Jet v (fun s => g s - h s) s (a - b) :=
  ⟨ha.smooth.sub hb.smooth, (good v s n).sub ha.smooth hb.smooth ha.jet hb.jet⟩
theorem neg (ha : Jet v g s a) : Jet v (fun s => -g s) s (-a) := ⟨ha.smooth.neg, (good v s n).neg ha.smooth ha.jet⟩
theorem mul (ha : Jet v g s a) (hb : Jet v h s b) : Jet v (fun s => g s * h s) s (a * b) :=
  ⟨ha.smooth.mul hb.smooth, (good v s n).mul ha.smooth hb.smooth ha.jet hb.jet⟩
theorem div (ha : Jet v g s a) (hb : Jet v h s b) (h0 : h s ≠ 0) : Jet v (fun s => g s / h s) s (a / b) :=
  ⟨ha.smooth.div hb.smooth h0, (good v s n).div ha.smooth hb.smooth h0 ha.jet hb.jet⟩
theorem pow (ha : Jet v g s a) (k : ℕ) : Jet v (fun s => g s ^ k) s (a ^ k) :=
  ⟨ha.smooth.pow k, (good v s n).pow k ha.smooth ha.jet⟩
theorem sqrt (ha : Jet v g s a) (h0 : 0 < g s) : Jet v (fun s => Real.sqrt (g s)) s (JFun.sqrt a) :=
  ⟨ha.smooth.sqrt h0.ne', (good v s n).sqrt ha.smooth h0 ha.jet⟩
theorem cbrt (ha : Jet v g s a) (h0 : 0 < g s) : Jet v (fun s => realCbrt (g s)) s (JFun.cbrt a) :=
  ⟨smooth_cbrt ha.smooth h0, (good v s n).cbrt ha.smooth h0 ha.jet⟩
theorem sin (ha : Jet v g s a) : Jet v (fun s => Real.sin (g s)) s (JFun.sin a) :=
  ⟨ha.smooth.sin, (good v s n).sin ha.smooth ha.jet⟩
theorem cos (ha : Jet v g s a) : Jet v (fun s => Real.cos (g s)) s (JFun.cos a) :=
  ⟨ha.smooth.cos, (good v s n).cos ha.smooth ha.jet⟩
theorem sinh (ha : Jet v g s a) : Jet v (fun s => Real.sinh (g s)) s (JFun.sinh a) :=
  ⟨ha.smooth.sinh, (good v s n).sinh ha.smooth ha.jet⟩
theorem cosh (ha : Jet v g s a) : Jet v (fun s => Real.cosh (g s)) s (JFun.cosh a) :=
  ⟨ha.smooth.cosh, (good v s n).cosh ha.smooth ha.jet⟩
theorem log (ha : Jet v g s a) (h0 : g s ≠ 0) : Jet v (fun s => Real.log (g s)) s (JFun.log a) :=
  ⟨ha.smooth.log h0, (good v s n).log ha.smooth h0 ha.jet⟩
theorem arccos (ha : Jet v g s a) (h0 : -1 < g s) (h1 : g s < 1) : Jet v (fun s => Real.arccos (g s)) s (JFun.arccos a) :=
  ⟨smooth_arccos ha.smooth h0 h1, (good v s n).arccos ha.smooth h0 h1 ha.jet⟩
theorem arctan2 (ha : Jet v g s a) (hb : Jet v h s b) (h0 : 0 < h s ∨ g s ≠ 0) :
    Jet v (fun s => Complex.arg ⟨h s, g s⟩) s (JFun.arctan2 a b) :=
  ⟨smooth_arctan2 ha.smooth hb.smooth h0, (good v s n).arctan2 ha.smooth hb.smooth h0 ha.jet hb.jet⟩
/-- on the cut -/
theorem arctan2_cut (ha : Jet v g s a) (hb : Jet v h s b) (h0 : h s < 0) (h1 : g s = 0) :
    Jet v (fun s => Real.pi + Complex.arg ⟨-h s, -g s⟩) s (JFun.arctan2 a b) :=
  ⟨contDiffAt_const.add (smooth_arctan2 ha.smooth.neg hb.smooth.neg (Or.inl (neg_pos.2 h0))),
    carries_arctan2_cut ha.smooth hb.smooth h0 h1 ha.jet hb.jet⟩
theorem abs (ha : Jet v g s a) (h0 : g s ≠ 0) : Jet v (fun s => |g s|) s (JFun.abs a) :=
  ⟨smooth_abs ha.smooth h0, (good v s n).abs ha.smooth h0 ha.jet⟩
theorem maximum (ha : Jet v g s a) (hb : Jet v h s b) (h0 : g s ≠ h s) :
    Jet v (fun s => max (g s) (h s)) s (JFun.maximum a b) := by
  refine ⟨?_, (good v s n).maximum ha.smooth hb.smooth h0 ha.jet hb.jet⟩
  rcases lt_or_gt_of_ne h0 with h | h
  · exact hb.smooth.congr_of_eventuallyEq (max_ev' ha.smooth hb.smooth h)
  · exact ha.smooth.congr_of_eventuallyEq (max_ev ha.smooth hb.smooth h)
theorem floor (ha : Jet v g s a) (h0 : g s ≠ ⌊g s⌋) : Jet v (fun s => (⌊g s⌋ : ℝ)) s (JFun.floor a) :=
  ⟨contDiffAt_const.congr_of_eventuallyEq (floor_ev ha.smooth h0), (good v s n).floor ha.smooth h0 ha.jet⟩
theorem onesLike (a : DualN n) : Jet v (fun _ => 1) s (JFun.onesLike a) := ⟨contDiffAt_const, (good v s n).onesLike a⟩
/-- `.item()` keeps the value and drops all derivatives. -/
theorem item (ha : Jet v g s a) : Jet v (fun _ => g s) s (JFun.item a) := ⟨contDiffAt_const, (good v s n).item ha.jet⟩
theorem lt (ha : Jet v g s a) (hb : Jet v h s b) : JFun.lt a b = decide (g s < h s) := (good v s n).lt ha.jet hb.jet
/-- Comparisons with the literal 0. -/
theorem lt_zero (ha : Jet v g s a) : JFun.lt a (ℓ 0 : DualN n) = decide (g s < 0) := by
  have := ha.lt (Jet.nat (v := v) (s := s) (n := n) 0)
  simpa using this
theorem zero_lt (ha : Jet v g s a) : JFun.lt (ℓ 0 : DualN n) a = decide (0 < g s) := by
  have := (Jet.nat (v := v) (s := s) (n := n) 0).lt ha
  simpa using this

theorem base (ha : Jet v g s a) : DualN.base n a = g s := by
  obtain ⟨-, hj⟩ := ha
  induction n generalizing g with
  | zero => exact hj
  | succ n ih => exact ih (carries_succ.1 hj).1

/-- What comes out of `n` nested calls is the `n`-th derivative along the directions. -/
theorem top (ha : Jet v g s a) : DualN.top n a = iteratedFDeriv ℝ n g s fun i => v i := by
  obtain ⟨hs, hj⟩ := ha
  induction n generalizing g with
  | zero =>
    rw [iteratedFDeriv_zero_apply]
    exact hj
  | succ n ih =>
    obtain ⟨-, h2⟩ := carries_succ.1 hj
    have e1 : iteratedFDeriv ℝ (n + 1) g s (fun i => v i) = iteratedFDeriv ℝ n (along (v n) g) s fun i => v i := by
      rw [iteratedFDeriv_succ_apply_right]
      have hc : ContDiffAt ℝ n (fderiv ℝ g) s := hs.fderiv_right (by exact_mod_cast le_top)
      have := ContinuousLinearMap.iteratedFDeriv_comp_left (ContinuousLinearMap.apply ℝ ℝ (v n)) hc (i := n) le_rfl
      have e2 : (⇑(ContinuousLinearMap.apply ℝ ℝ (v n)) ∘ fderiv ℝ g) = along (v n) g := rfl
      rw [e2] at this
      rw [this]
      simp
      rfl
    rw [e1]
    revert h2
    show CarriesO v s n (along (v n) g) (Dual.tan (α := DualN n) a) → ((Dual.tan (α := DualN n) a).map (DualN.top n)).getD 0 = _
    intro h2
    cases ht : Dual.tan (α := DualN n) a with
    | some t =>
      rw [ht] at h2
      exact ih (smooth_along hs _) h2
    | none =>
      rw [ht] at h2
      have h3 : iteratedFDeriv ℝ n (along (v n) g) s = iteratedFDeriv ℝ n (fun _ => (0 : ℝ)) s :=
        (Filter.EventuallyEq.iteratedFDeriv (𝕜 := ℝ) h2 n).self_of_nhds
      rw [h3]
      simp
end Jet

end Spec
end Adx
