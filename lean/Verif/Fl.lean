import Verif.XR
import Verif.Rnd

/-!
# Floating point with rounding, overflow and special values

`Fl F Ω` joins the two partial pictures `Rnd` (rounding) and `XR` (special values): every operation is the IEEE operation on
`XR` followed by the rounding of `F`; a rounded result above the largest finite number `Ω` becomes an infinity of its sign.
`Bin32` is binary32 in this sense, `Bin64` binary64.
Simplifications: one zero only; no underflow in `Bin32` and `Bin64` (the exponent range is unbounded below). `Lemmas/Under` has
roundings `F` with underflow.
-/

namespace Adx

/-- A floating-point number of precision `F` and largest finite magnitude `Ω`. -/
structure Fl (F : Fp) (Ω : ℝ) where
  /-- the number, infinity or `nan` -/
  v : XR

namespace Fl
variable {F : Fp} {Ω : ℝ}

@[ext] theorem ext {a b : Fl F Ω} (h : a.v = b.v) : a = b := by cases a; cases b; simp_all

/-- Overflow: an already rounded result beyond the largest finite number is an infinity. -/
noncomputable def clip (Ω y : ℝ) : XR := if |y| ≤ Ω then XR.fin y else XR.infOf y

/-- Rounding with overflow of the result of an exact operation. -/
noncomputable def rnd (F : Fp) (Ω : ℝ) : XR → XR
  | .fin x => clip Ω (F.rd x)
  | .pinf => .pinf
  | .ninf => .ninf
  | .nan => .nan

/-- A finite number. -/
def fin (x : ℝ) : Fl F Ω := ⟨.fin x⟩
/-- `+inf` -/
def pinf : Fl F Ω := ⟨.pinf⟩
/-- `-inf` -/
def ninf : Fl F Ω := ⟨.ninf⟩
/-- `nan` -/
def nan : Fl F Ω := ⟨.nan⟩

noncomputable instance : Add (Fl F Ω) := ⟨fun a b => ⟨rnd F Ω (a.v + b.v)⟩⟩
noncomputable instance : Sub (Fl F Ω) := ⟨fun a b => ⟨rnd F Ω (a.v - b.v)⟩⟩
noncomputable instance : Mul (Fl F Ω) := ⟨fun a b => ⟨rnd F Ω (a.v * b.v)⟩⟩
noncomputable instance : Div (Fl F Ω) := ⟨fun a b => ⟨rnd F Ω (a.v / b.v)⟩⟩
noncomputable instance : Neg (Fl F Ω) := ⟨fun a => ⟨-a.v⟩⟩
noncomputable instance : NatCast (Fl F Ω) := ⟨fun n => ⟨clip Ω (F.rd n)⟩⟩
/-- `x**n` by repeated multiplication (`x**2 = x*x`, as `lax.integer_pow` computes it) -/
noncomputable def powNat (x : Fl F Ω) : ℕ → Fl F Ω
  | 0 => ((1 : ℕ) : Fl F Ω)
  | 1 => x
  | n + 2 => powNat x (n + 1) * x
noncomputable instance : Pow (Fl F Ω) ℕ := ⟨powNat⟩

noncomputable instance : JFun (Fl F Ω) where
  pi := ⟨clip Ω (F.rd Real.pi)⟩
  sqrt a := ⟨rnd F Ω (JFun.sqrt a.v)⟩
  cbrt a := ⟨XR.lift (fun x => clip Ω (F.cbrt x)) .pinf .ninf a.v⟩
  sin a := ⟨XR.lift (fun x => clip Ω (F.sin x)) .nan .nan a.v⟩
  cos a := ⟨XR.lift (fun x => clip Ω (F.cos x)) .nan .nan a.v⟩
  sinh a := ⟨XR.lift (fun x => clip Ω (F.sinh x)) .pinf .ninf a.v⟩
  cosh a := ⟨XR.lift (fun x => clip Ω (F.cosh x)) .pinf .pinf a.v⟩
  log a := ⟨XR.lift (fun x => if x < 0 then .nan else if x = 0 then .ninf else clip Ω (F.log x)) .pinf .nan a.v⟩
  arccos a := ⟨XR.lift (fun x => if x < -1 ∨ 1 < x then .nan else clip Ω (F.arccos x)) .nan .nan a.v⟩
  arctan2 b a := match b.v, a.v with
    | .fin y, .fin x => ⟨clip Ω (F.arctan2 y x)⟩
    | y, x => ⟨rnd F Ω (JFun.arctan2 y x)⟩
  abs a := ⟨JFun.abs a.v⟩
  maximum a b := ⟨JFun.maximum a.v b.v⟩
  floor a := ⟨JFun.floor a.v⟩
  onesLike _ := ⟨.fin 1⟩
  item a := a
  lt a b := JFun.lt a.v b.v

section Simp
variable (x y : ℝ) (a b : Fl F Ω)

@[simp] theorem fin_inj : (fin x : Fl F Ω) = fin y ↔ x = y := by
  constructor
  · intro h; exact (XR.fin_inj x y).1 (congrArg Fl.v h)
  · rintro rfl; rfl

theorem clip_le {y : ℝ} (h : |y| ≤ Ω) : clip Ω y = XR.fin y := if_pos h
theorem clip_gt {y : ℝ} (h : Ω < |y|) : clip Ω y = XR.infOf y := if_neg (not_le.2 h)

theorem add_fin {x y : ℝ} (h : |F.rd (x + y)| ≤ Ω) : (fin x + fin y : Fl F Ω) = fin (F.rd (x + y)) :=
  ext (clip_le h)
theorem sub_fin {x y : ℝ} (h : |F.rd (x - y)| ≤ Ω) : (fin x - fin y : Fl F Ω) = fin (F.rd (x - y)) :=
  ext (by show rnd F Ω (XR.fin x - XR.fin y) = _; rw [XR.fin_sub]; exact clip_le h)
theorem mul_fin {x y : ℝ} (h : |F.rd (x * y)| ≤ Ω) : (fin x * fin y : Fl F Ω) = fin (F.rd (x * y)) :=
  ext (clip_le h)
theorem div_fin {x y : ℝ} (hy : y ≠ 0) (h : |F.rd (x / y)| ≤ Ω) : (fin x / fin y : Fl F Ω) = fin (F.rd (x / y)) :=
  ext (by show rnd F Ω (XR.fin x / XR.fin y) = _; rw [XR.fin_div x hy]; exact clip_le h)
@[simp] theorem neg_fin : (-fin x : Fl F Ω) = fin (-x) := rfl
theorem lit_fin {n : ℕ} (h : |F.rd n| ≤ Ω) : ((n : ℕ) : Fl F Ω) = fin (F.rd n) := ext (clip_le h)
theorem sqrt_fin {x : ℝ} (hx : 0 ≤ x) (h : |F.rd (Real.sqrt x)| ≤ Ω) : JFun.sqrt (fin x : Fl F Ω) = fin (F.rd (Real.sqrt x)) :=
  ext (by show rnd F Ω (JFun.sqrt (XR.fin x)) = _; rw [XR.sqrt_fin hx]; exact clip_le h)
theorem pow_two : a ^ 2 = a * a := rfl
theorem pow_succ_succ (n : ℕ) : a ^ (n + 2) = a ^ (n + 1) * a := rfl
@[simp] theorem pow_one' : a ^ 1 = a := rfl
theorem log_fin {x : ℝ} (hx : 0 < x) (h : |F.log x| ≤ Ω) : JFun.log (fin x : Fl F Ω) = fin (F.log x) :=
  ext (by
    show (if x < 0 then XR.nan else if x = 0 then XR.ninf else clip Ω (F.log x)) = _
    rw [if_neg (not_lt.2 hx.le), if_neg hx.ne']; exact clip_le h)
@[simp] theorem log_zero : JFun.log (fin 0 : Fl F Ω) = ninf :=
  ext (by
    show (if (0 : ℝ) < 0 then XR.nan else if (0 : ℝ) = 0 then XR.ninf else clip Ω (F.log 0)) = _
    simp [ninf])
@[simp] theorem log_pinf : JFun.log (pinf : Fl F Ω) = pinf := rfl
@[simp] theorem sinh_pinf : JFun.sinh (pinf : Fl F Ω) = pinf := rfl
@[simp] theorem sinh_ninf : JFun.sinh (ninf : Fl F Ω) = ninf := rfl
theorem sinh_fin {x : ℝ} (h : |F.sinh x| ≤ Ω) : JFun.sinh (fin x : Fl F Ω) = fin (F.sinh x) := ext (clip_le h)
theorem cosh_fin {x : ℝ} (h : |F.cosh x| ≤ Ω) : JFun.cosh (fin x : Fl F Ω) = fin (F.cosh x) := ext (clip_le h)
theorem sin_fin {x : ℝ} (h : |F.sin x| ≤ Ω) : JFun.sin (fin x : Fl F Ω) = fin (F.sin x) := ext (clip_le h)
theorem cos_fin {x : ℝ} (h : |F.cos x| ≤ Ω) : JFun.cos (fin x : Fl F Ω) = fin (F.cos x) := ext (clip_le h)
@[simp] theorem abs_fin : JFun.abs (fin x : Fl F Ω) = fin |x| := rfl
@[simp] theorem abs_pinf : JFun.abs (pinf : Fl F Ω) = pinf := rfl
@[simp] theorem abs_ninf : JFun.abs (ninf : Fl F Ω) = pinf := rfl
@[simp] theorem abs_nan : JFun.abs (nan : Fl F Ω) = nan := rfl
@[simp] theorem lt_fin : JFun.lt (fin x : Fl F Ω) (fin y) = decide (x < y) := rfl
@[simp] theorem lt_nan : JFun.lt a nan = false := XR.lt_nan a.v
@[simp] theorem nan_lt : JFun.lt nan a = false := XR.nan_lt a.v
@[simp] theorem fin_lt_pinf : JFun.lt (fin x : Fl F Ω) pinf = true := rfl
@[simp] theorem item_fl : JFun.item a = a := rfl
@[simp] theorem onesLike_fl : JFun.onesLike a = fin 1 := rfl
@[simp] theorem neg_pinf : (-pinf : Fl F Ω) = ninf := rfl
@[simp] theorem neg_ninf : (-ninf : Fl F Ω) = pinf := rfl
@[simp] theorem neg_nan : (-nan : Fl F Ω) = nan := rfl
@[simp] theorem nan_add : nan + a = nan := ext (by show rnd F Ω (XR.nan + a.v) = _; rw [XR.nan_add]; rfl)
@[simp] theorem add_nan : a + nan = nan := ext (by show rnd F Ω (a.v + XR.nan) = _; rw [XR.add_nan]; rfl)
@[simp] theorem nan_sub : nan - a = nan := ext (by show rnd F Ω (XR.nan - a.v) = _; rw [XR.nan_sub]; rfl)
@[simp] theorem sub_nan : a - nan = nan := ext (by show rnd F Ω (a.v - XR.nan) = _; rw [XR.sub_nan]; rfl)
@[simp] theorem nan_mul : nan * a = nan := ext (by show rnd F Ω (XR.nan * a.v) = _; rw [XR.nan_mul]; rfl)
@[simp] theorem mul_nan : a * nan = nan := ext (by show rnd F Ω (a.v * XR.nan) = _; rw [XR.mul_nan]; rfl)
@[simp] theorem nan_div : nan / a = nan := ext (by show rnd F Ω (XR.nan / a.v) = _; rw [XR.nan_div]; rfl)
@[simp] theorem div_nan : a / nan = nan := ext (by show rnd F Ω (a.v / XR.nan) = _; rw [XR.div_nan]; rfl)
@[simp] theorem pinf_add_fin : (pinf + fin x : Fl F Ω) = pinf := rfl
@[simp] theorem fin_add_pinf : (fin x + pinf : Fl F Ω) = pinf := rfl
@[simp] theorem ninf_add_fin : (ninf + fin x : Fl F Ω) = ninf := rfl
@[simp] theorem fin_add_ninf : (fin x + ninf : Fl F Ω) = ninf := rfl
@[simp] theorem pinf_add_pinf : (pinf + pinf : Fl F Ω) = pinf := rfl
@[simp] theorem ninf_add_ninf : (ninf + ninf : Fl F Ω) = ninf := rfl
@[simp] theorem pinf_add_ninf : (pinf + ninf : Fl F Ω) = nan := rfl
@[simp] theorem ninf_add_pinf : (ninf + pinf : Fl F Ω) = nan := rfl
@[simp] theorem pinf_sub_fin : (pinf - fin x : Fl F Ω) = pinf := rfl
@[simp] theorem fin_sub_pinf : (fin x - pinf : Fl F Ω) = ninf := rfl
@[simp] theorem ninf_sub_fin : (ninf - fin x : Fl F Ω) = ninf := rfl
@[simp] theorem fin_sub_ninf : (fin x - ninf : Fl F Ω) = pinf := rfl
@[simp] theorem pinf_sub_pinf : (pinf - pinf : Fl F Ω) = nan := rfl
@[simp] theorem ninf_sub_ninf : (ninf - ninf : Fl F Ω) = nan := rfl
@[simp] theorem pinf_div_pinf : (pinf / pinf : Fl F Ω) = nan := rfl
@[simp] theorem ninf_div_pinf : (ninf / pinf : Fl F Ω) = nan := rfl
@[simp] theorem pinf_div_ninf : (pinf / ninf : Fl F Ω) = nan := rfl
@[simp] theorem ninf_div_ninf : (ninf / ninf : Fl F Ω) = nan := rfl
@[simp] theorem pinf_mul_pinf : (pinf * pinf : Fl F Ω) = pinf := rfl
@[simp] theorem sqrt_pinf : JFun.sqrt (pinf : Fl F Ω) = pinf := rfl
@[simp] theorem sqrt_nan : JFun.sqrt (nan : Fl F Ω) = nan := rfl
@[simp] theorem sinh_nan : JFun.sinh (nan : Fl F Ω) = nan := rfl
@[simp] theorem cosh_nan : JFun.cosh (nan : Fl F Ω) = nan := rfl

/-- Multiplication by an infinity. -/
theorem pinf_mul_pos {y : ℝ} (h : 0 < y) : (pinf * fin y : Fl F Ω) = pinf :=
  ext (by show rnd F Ω (XR.pinf * XR.fin y) = _; rw [XR.pinf_mul_fin, XR.infOf_pos h]; rfl)
theorem pinf_mul_neg {y : ℝ} (h : y < 0) : (pinf * fin y : Fl F Ω) = ninf :=
  ext (by show rnd F Ω (XR.pinf * XR.fin y) = _; rw [XR.pinf_mul_fin, XR.infOf_neg h]; rfl)
theorem ninf_mul_pos {y : ℝ} (h : 0 < y) : (ninf * fin y : Fl F Ω) = ninf :=
  ext (by show rnd F Ω (XR.ninf * XR.fin y) = _; rw [XR.ninf_mul_fin, XR.infOf_neg (by linarith)]; rfl)
theorem pos_mul_pinf {x : ℝ} (h : 0 < x) : (fin x * pinf : Fl F Ω) = pinf :=
  ext (by show rnd F Ω (XR.fin x * XR.pinf) = _; rw [XR.fin_mul_pinf, XR.infOf_pos h]; rfl)
theorem neg_mul_pinf {x : ℝ} (h : x < 0) : (fin x * pinf : Fl F Ω) = ninf :=
  ext (by show rnd F Ω (XR.fin x * XR.pinf) = _; rw [XR.fin_mul_pinf, XR.infOf_neg h]; rfl)
theorem pos_mul_ninf {x : ℝ} (h : 0 < x) : (fin x * ninf : Fl F Ω) = ninf :=
  ext (by show rnd F Ω (XR.fin x * XR.ninf) = _; rw [XR.fin_mul_ninf, XR.infOf_neg (by linarith)]; rfl)
theorem neg_mul_ninf {x : ℝ} (h : x < 0) : (fin x * ninf : Fl F Ω) = pinf :=
  ext (by show rnd F Ω (XR.fin x * XR.ninf) = _; rw [XR.fin_mul_ninf, XR.infOf_pos (by linarith)]; rfl)
@[simp] theorem zero_mul_pinf : (fin 0 * pinf : Fl F Ω) = nan :=
  ext (by show rnd F Ω (XR.fin 0 * XR.pinf) = _; rw [XR.fin_mul_pinf, XR.infOf_zero]; rfl)
@[simp] theorem zero_mul_ninf : (fin 0 * ninf : Fl F Ω) = nan :=
  ext (by show rnd F Ω (XR.fin 0 * XR.ninf) = _; rw [XR.fin_mul_ninf, neg_zero, XR.infOf_zero]; rfl)
theorem pinf_div_pos {y : ℝ} (h : 0 < y) : (pinf / fin y : Fl F Ω) = pinf :=
  ext (by show rnd F Ω (if 0 ≤ y then XR.pinf else XR.ninf) = _; rw [if_pos h.le]; rfl)
theorem pinf_div_neg {y : ℝ} (h : y < 0) : (pinf / fin y : Fl F Ω) = ninf :=
  ext (by show rnd F Ω (if 0 ≤ y then XR.pinf else XR.ninf) = _; rw [if_neg (not_le.2 h)]; rfl)
theorem ninf_div_pos {y : ℝ} (h : 0 < y) : (ninf / fin y : Fl F Ω) = ninf :=
  ext (by show rnd F Ω (if 0 ≤ y then XR.ninf else XR.pinf) = _; rw [if_pos h.le]; rfl)
theorem ninf_div_neg {y : ℝ} (h : y < 0) : (ninf / fin y : Fl F Ω) = pinf :=
  ext (by show rnd F Ω (if 0 ≤ y then XR.ninf else XR.pinf) = _; rw [if_neg (not_le.2 h)]; rfl)

/-- Products that overflow. -/
theorem mul_pinf_of {x y : ℝ} (h : Ω < F.rd (x * y)) (hΩ : 0 ≤ Ω) : (fin x * fin y : Fl F Ω) = pinf :=
  ext (by
    show clip Ω (F.rd (x * y)) = _
    rw [clip_gt (lt_of_lt_of_le h (le_abs_self _)), XR.infOf_pos (by linarith)]; rfl)
end Simp

end Fl
end Adx
