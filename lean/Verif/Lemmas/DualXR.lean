import Verif.XR
import Verif.Model.Dual
import Verif.Lemmas.RealVec

/-! # Tracing with the IEEE special values

`dfin d` is a traced value whose value and tangent are finite. On the smooth domain of an operation finite traced
values give finite traced values. -/

namespace Adx
open XR

/-- A finite traced value, among the traced values that may be infinite or NaN. -/
noncomputable def dfin (d : Dual ℝ) : Dual XR := ⟨fin d.val, d.tan.map fin⟩

/-- A finite traced vector. -/
noncomputable def dvec (v : V3 (Dual ℝ)) : V3 (Dual XR) := ⟨dfin v.x, dfin v.y, dfin v.z⟩

namespace XRDual
variable (a b : Dual ℝ)

theorem addTan_fin (s t : Option ℝ) : Dual.addTan (s.map fin) (t.map fin) = (Dual.addTan s t).map fin := by
  cases s <;> cases t <;> rfl

@[simp] theorem add : dfin a + dfin b = dfin (a + b) := Dual.ext rfl (addTan_fin a.tan b.tan)
@[simp] theorem neg : -dfin a = dfin (-a) := by
  refine Dual.ext rfl ?_
  show (a.tan.map fin).map (fun g => -g) = (a.tan.map fun g => -g).map fin
  cases a.tan <;> rfl
@[simp] theorem sub : dfin a - dfin b = dfin (a - b) := by
  refine Dual.ext (fin_sub _ _) ?_
  show Dual.addTan (a.tan.map fin) ((b.tan.map fin).map fun g => -g) = _
  rw [show (b.tan.map fin).map (fun g => -g) = (b.tan.map fun g => -g).map fin by cases b.tan <;> rfl]
  exact addTan_fin _ _
@[simp] theorem mul : dfin a * dfin b = dfin (a * b) := by
  refine Dual.ext rfl ?_
  show Dual.addTan ((a.tan.map fin).map fun g => g * fin b.val) ((b.tan.map fin).map fun g => fin a.val * g) = _
  rw [show (a.tan.map fin).map (fun g => g * fin b.val) = (a.tan.map fun g => g * b.val).map fin by
      cases a.tan <;> rfl,
    show (b.tan.map fin).map (fun g => fin a.val * g) = (b.tan.map fun g => a.val * g).map fin by cases b.tan <;> rfl]
  exact addTan_fin _ _
variable {a b}
theorem div (h : b.val ≠ 0) : dfin a / dfin b = dfin (a / b) := by
  have h2 : b.val ^ 2 ≠ 0 := pow_ne_zero 2 h
  refine Dual.ext (fin_div _ h) ?_
  show Dual.addTan ((a.tan.map fin).map fun g => g / fin b.val)
    ((b.tan.map fin).map fun g => -g * fin a.val * (((1 : ℕ) : XR) / fin b.val ^ 2)) = _
  rw [show (a.tan.map fin).map (fun g => g / fin b.val) = (a.tan.map fun g => g / b.val).map fin by
      cases a.tan <;> simp [fin_div _ h],
    show (b.tan.map fin).map (fun g => -g * fin a.val * (((1 : ℕ) : XR) / fin b.val ^ 2))
      = (b.tan.map fun g => -g * a.val * (((1 : ℕ) : ℝ) / b.val ^ 2)).map fin by
      cases b.tan <;> simp [fin_div _ h2]]
  exact addTan_fin _ _
@[simp] theorem pow (n : ℕ) : (dfin a) ^ n = dfin (a ^ n) := by
  refine Dual.ext (fin_pow _ n) ?_
  show (a.tan.map fin).map (fun g => if n = 0 then ((0 : ℕ) : XR) else g * ((n : XR) * fin a.val ^ (n - 1)))
    = (a.tan.map fun g => if n = 0 then ((0 : ℕ) : ℝ) else g * ((n : ℝ) * a.val ^ (n - 1))).map fin
  rcases a.tan with _ | g
  · rfl
  · by_cases h : n = 0 <;> simp [h]
@[simp] theorem nat (n : ℕ) : ((n : ℕ) : Dual XR) = dfin ((n : ℕ) : Dual ℝ) := rfl
@[simp] theorem pi : (JFun.pi : Dual XR) = dfin JFun.pi := rfl
theorem sqrt (h : 0 < a.val) : JFun.sqrt (dfin a) = dfin (JFun.sqrt a) := by
  refine Dual.ext (sqrt_fin h.le) ?_
  show (a.tan.map fin).map (fun g => g * (((1 : ℕ) : XR) / ((2 : ℕ) : XR) / JFun.sqrt (fin a.val)))
    = (a.tan.map fun g => g * (((1 : ℕ) : ℝ) / ((2 : ℕ) : ℝ) / JFun.sqrt a.val)).map fin
  rw [sqrt_fin h.le, cast_fin, cast_fin, fin_div _ (by norm_num : ((2 : ℕ) : ℝ) ≠ 0), fin_div _ (Real.sqrt_pos.2 h).ne']
  cases a.tan <;> rfl
/-- The square root of an untraced number. -/
theorem sqrt_none (x : ℝ) (h : 0 ≤ x) : JFun.sqrt (dfin ⟨x, none⟩) = dfin ⟨Real.sqrt x, none⟩ :=
  Dual.ext (sqrt_fin h) rfl
theorem cbrt (h : 0 < a.val) : JFun.cbrt (dfin a) = dfin (JFun.cbrt a) := by
  refine Dual.ext rfl ?_
  have hc : realCbrt a.val ^ 2 ≠ 0 := pow_ne_zero 2 (by rw [realCbrt, if_pos h.le]; positivity)
  show (a.tan.map fin).map (fun g => g * (((1 : ℕ) : XR) / ((3 : ℕ) : XR) * (((1 : ℕ) : XR) / JFun.cbrt (fin a.val) ^ 2)))
    = (a.tan.map fun g => g * (((1 : ℕ) : ℝ) / ((3 : ℕ) : ℝ) * (((1 : ℕ) : ℝ) / JFun.cbrt a.val ^ 2))).map fin
  rw [cast_fin, cast_fin, fin_div _ (by norm_num : ((3 : ℕ) : ℝ) ≠ 0),
    show JFun.cbrt (fin a.val) ^ 2 = fin (realCbrt a.val ^ 2) from fin_pow _ 2, fin_div _ hc]
  cases a.tan <;> rfl
@[simp] theorem sin : JFun.sin (dfin a) = dfin (JFun.sin a) := by
  refine Dual.ext rfl ?_
  show (a.tan.map fin).map (fun g => g * JFun.cos (fin a.val)) = (a.tan.map fun g => g * JFun.cos a.val).map fin
  cases a.tan <;> rfl
@[simp] theorem cos : JFun.cos (dfin a) = dfin (JFun.cos a) := by
  refine Dual.ext rfl ?_
  show (a.tan.map fin).map (fun g => -(g * JFun.sin (fin a.val))) = (a.tan.map fun g => -(g * JFun.sin a.val)).map fin
  cases a.tan <;> rfl
@[simp] theorem sinh : JFun.sinh (dfin a) = dfin (JFun.sinh a) := by
  refine Dual.ext rfl ?_
  show (a.tan.map fin).map (fun g => g * JFun.cosh (fin a.val)) = (a.tan.map fun g => g * JFun.cosh a.val).map fin
  cases a.tan <;> rfl
@[simp] theorem cosh : JFun.cosh (dfin a) = dfin (JFun.cosh a) := by
  refine Dual.ext rfl ?_
  show (a.tan.map fin).map (fun g => g * JFun.sinh (fin a.val)) = (a.tan.map fun g => g * JFun.sinh a.val).map fin
  cases a.tan <;> rfl
theorem log (h : 0 < a.val) : JFun.log (dfin a) = dfin (JFun.log a) := by
  refine Dual.ext (log_fin h) ?_
  show (a.tan.map fin).map (fun g => g / fin a.val) = (a.tan.map fun g => g / a.val).map fin
  cases a.tan <;> simp [fin_div _ h.ne']
theorem arccos (h : -1 < a.val) (h' : a.val < 1) : JFun.arccos (dfin a) = dfin (JFun.arccos a) := by
  refine Dual.ext (arccos_fin h.le h'.le) ?_
  have hp : 0 < 1 - a.val ^ 2 := by nlinarith
  show (a.tan.map fin).map (fun g => g * -(((1 : ℕ) : XR) / JFun.sqrt (((1 : ℕ) : XR) - fin a.val ^ 2)))
    = (a.tan.map fun g => g * -(((1 : ℕ) : ℝ) / JFun.sqrt (((1 : ℕ) : ℝ) - a.val ^ 2))).map fin
  have hs : JFun.sqrt (((1 : ℕ) : XR) - fin a.val ^ 2) = fin (Real.sqrt (1 - a.val ^ 2)) := by
    rw [cast_fin, fin_pow, fin_sub, Nat.cast_one, sqrt_fin hp.le]
  rw [hs]
  cases a.tan <;> simp [fin_div _ (Real.sqrt_pos.2 hp).ne']
theorem arctan2 (h : a.val ≠ 0 ∨ b.val ≠ 0) : JFun.arctan2 (dfin a) (dfin b) = dfin (JFun.arctan2 a b) := by
  have hp : a.val ^ 2 + b.val ^ 2 ≠ 0 := by
    rcases h with h | h
    · have := sq_nonneg b.val; have := pow_pos (abs_pos.2 h) 2; rw [sq_abs] at this; linarith
    · have := sq_nonneg a.val; have := pow_pos (abs_pos.2 h) 2; rw [sq_abs] at this; linarith
  refine Dual.ext rfl ?_
  show Dual.addTan ((a.tan.map fin).map fun g => g * (fin b.val / (fin a.val ^ 2 + fin b.val ^ 2)))
    ((b.tan.map fin).map fun g => g * -fin a.val / (fin a.val ^ 2 + fin b.val ^ 2)) = _
  rw [show (a.tan.map fin).map (fun g => g * (fin b.val / (fin a.val ^ 2 + fin b.val ^ 2)))
      = (a.tan.map fun g => g * (b.val / (a.val ^ 2 + b.val ^ 2))).map fin by cases a.tan <;> simp [fin_div _ hp],
    show (b.tan.map fin).map (fun g => g * -fin a.val / (fin a.val ^ 2 + fin b.val ^ 2))
      = (b.tan.map fun g => g * -a.val / (a.val ^ 2 + b.val ^ 2)).map fin by cases b.tan <;> simp [fin_div _ hp]]
  exact addTan_fin _ _
theorem sign_fin (x : ℝ) : Dual.sign (fin x) = fin (Dual.sign x) := by
  by_cases h : ((0 : ℕ) : ℝ) < x
  · have h1 : JFun.lt ((0 : ℕ) : XR) (fin x) = true := decide_eq_true h
    have h2 : JFun.lt ((0 : ℕ) : ℝ) x = true := decide_eq_true h
    rw [Dual.sign, Dual.sign, if_pos h1, if_pos h2]; rfl
  · have h1 : ¬JFun.lt ((0 : ℕ) : XR) (fin x) = true := fun hh => h (of_decide_eq_true hh)
    have h2 : ¬JFun.lt ((0 : ℕ) : ℝ) x = true := fun hh => h (of_decide_eq_true hh)
    rw [Dual.sign, Dual.sign, if_neg h1, if_neg h2]
    by_cases h' : x < ((0 : ℕ) : ℝ)
    · have h1 : JFun.lt (fin x) ((0 : ℕ) : XR) = true := decide_eq_true h'
      have h2 : JFun.lt x ((0 : ℕ) : ℝ) = true := decide_eq_true h'
      rw [if_pos h1, if_pos h2]; rfl
    · have h1 : ¬JFun.lt (fin x) ((0 : ℕ) : XR) = true := fun hh => h' (of_decide_eq_true hh)
      have h2 : ¬JFun.lt x ((0 : ℕ) : ℝ) = true := fun hh => h' (of_decide_eq_true hh)
      rw [if_neg h1, if_neg h2]
@[simp] theorem abs : JFun.abs (dfin a) = dfin (JFun.abs a) := by
  refine Dual.ext rfl ?_
  show (a.tan.map fin).map (fun g => g * Dual.sign (fin a.val)) = (a.tan.map fun g => g * Dual.sign a.val).map fin
  rw [sign_fin]
  cases a.tan <;> rfl
theorem share_fin (x y : ℝ) : Dual.share (fin x) (fin y) = fin (Dual.share x y) := by
  by_cases h : y < x
  · have h1 : JFun.lt (fin y) (fin x) = true := decide_eq_true h
    have h2 : JFun.lt y x = true := decide_eq_true h
    rw [Dual.share, Dual.share, if_pos h1, if_pos h2]; rfl
  · have h1 : ¬JFun.lt (fin y) (fin x) = true := fun hh => h (of_decide_eq_true hh)
    have h2 : ¬JFun.lt y x = true := fun hh => h (of_decide_eq_true hh)
    rw [Dual.share, Dual.share, if_neg h1, if_neg h2]
    by_cases h' : x < y
    · have h1 : JFun.lt (fin x) (fin y) = true := decide_eq_true h'
      have h2 : JFun.lt x y = true := decide_eq_true h'
      rw [if_pos h1, if_pos h2]; rfl
    · have h1 : ¬JFun.lt (fin x) (fin y) = true := fun hh => h' (of_decide_eq_true hh)
      have h2 : ¬JFun.lt x y = true := fun hh => h' (of_decide_eq_true hh)
      rw [if_neg h1, if_neg h2, cast_fin, cast_fin, fin_div _ (by norm_num : ((2 : ℕ) : ℝ) ≠ 0)]
@[simp] theorem maximum : JFun.maximum (dfin a) (dfin b) = dfin (JFun.maximum a b) := by
  refine Dual.ext rfl ?_
  show Dual.addTan ((a.tan.map fin).map fun g => g * Dual.share (fin a.val) (fin b.val))
    ((b.tan.map fin).map fun g => g * Dual.share (fin b.val) (fin a.val)) = _
  rw [share_fin, share_fin, show (a.tan.map fin).map (fun g => g * fin (Dual.share a.val b.val))
      = (a.tan.map fun g => g * Dual.share a.val b.val).map fin by cases a.tan <;> rfl,
    show (b.tan.map fin).map (fun g => g * fin (Dual.share b.val a.val))
      = (b.tan.map fun g => g * Dual.share b.val a.val).map fin by cases b.tan <;> rfl]
  exact addTan_fin _ _
@[simp] theorem floor : JFun.floor (dfin a) = dfin (JFun.floor a) := rfl
@[simp] theorem onesLike : JFun.onesLike (dfin a) = dfin (JFun.onesLike a) := rfl
@[simp] theorem lt : JFun.lt (dfin a) (dfin b) = JFun.lt a b := rfl

variable (u v : V3 (Dual ℝ))
@[simp] theorem vx : (dvec u).x = dfin u.x := rfl
@[simp] theorem vy : (dvec u).y = dfin u.y := rfl
@[simp] theorem vz : (dvec u).z = dfin u.z := rfl
@[simp] theorem vmk (x y z : Dual ℝ) : (⟨dfin x, dfin y, dfin z⟩ : V3 (Dual XR)) = dvec ⟨x, y, z⟩ := rfl
@[simp] theorem vadd : dvec u + dvec v = dvec (u + v) := by ext1 <;> exact add _ _
@[simp] theorem vsub : dvec u - dvec v = dvec (u - v) := by ext1 <;> exact sub _ _
@[simp] theorem vneg : -dvec u = dvec (-u) := by ext1 <;> exact neg _
@[simp] theorem vsmul : dfin a • dvec u = dvec (a • u) := by ext1 <;> exact mul _ _
theorem vdiv (h : a.val ≠ 0) : dvec u / dfin a = dvec (u / a) := by ext1 <;> exact div h
@[simp] theorem vdot : V3.dot (dvec u) (dvec v) = dfin (V3.dot u v) := by simp [V3.dot]
@[simp] theorem vcross : V3.cross (dvec u) (dvec v) = dvec (V3.cross u v) := by simp [V3.cross]

theorem dot_val : (V3.dot u v).val = u.x.val * v.x.val + u.y.val * v.y.val + u.z.val * v.z.val := rfl
theorem vnorm (h : u.x.val ≠ 0 ∨ u.y.val ≠ 0 ∨ u.z.val ≠ 0) : V3.norm (dvec u) = dfin (V3.norm u) := by
  unfold V3.norm
  rw [vdot, sqrt]
  rw [dot_val]
  have := mul_self_nonneg u.x.val; have := mul_self_nonneg u.y.val; have := mul_self_nonneg u.z.val
  rcases h with h | h | h <;> have := mul_self_pos.2 h <;> linarith

end XRDual
end Adx
