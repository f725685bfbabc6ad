import Verif.XR

/-!
# Exact arithmetic with signed zeros

IEEE 754 has two zeros. They compare equal, but `1 / -0 = -inf` and `arctan2(0, -0) = π`. `SX` is `XR` with the sign of zero:
sign rules of IEEE 754 for sums (round to nearest: `x - x = +0`), products, quotients and square roots, and of the C library for the
elementary functions. Otherwise exact.
Not modelled: `jnp.sum` starts from `+0`, so three summands `-0` add up to `+0` there and to `-0` in `V3.dot`.
-/

namespace Adx

/-- A number; `neg` is the sign of a zero and means nothing for other values. -/
structure SX where
  /-- the value, the two zeros identified -/
  val : XR
  /-- whether a zero is `-0` -/
  neg : Bool

namespace SX
open XR (fin pinf ninf nan)

/-- The sign bit. -/
noncomputable def sb (a : SX) : Bool := match a.val with
  | fin x => if x = 0 then a.neg else decide (x < 0)
  | pinf => false
  | ninf => true
  | nan => false

/-- An infinity with a given sign bit. -/
noncomputable def inf (s : Bool) : XR := if s then ninf else pinf

/-- The value of a quotient: a zero divisor counts with its sign. -/
noncomputable def divVal (a b : SX) : XR := match a.val, b.val with
  | fin x, fin y => if y = 0 then (if x = 0 then nan else inf (xor a.sb b.sb)) else fin (x / y)
  | pinf, fin _ => inf (xor a.sb b.sb)
  | ninf, fin _ => inf (xor a.sb b.sb)
  | x, y => x / y

/-- The value of `arctan2(y, x)`: for a zero `y` its sign decides between `π` and `-π`, and the sign bit of `x` (of a zero also) between
these and `0`. -/
noncomputable def atan2Val (a b : SX) : XR := match a.val, b.val with
  | fin y, fin x =>
    if y = 0 then (if b.sb then (if a.sb then fin (-Real.pi) else fin Real.pi) else fin 0) else fin (Complex.arg ⟨x, y⟩)
  | fin _, ninf => if a.sb then fin (-Real.pi) else fin Real.pi
  | y, x => XR.arctan2 y x

noncomputable instance : Add SX := ⟨fun a b => ⟨a.val + b.val, a.sb && b.sb⟩⟩
noncomputable instance : Sub SX := ⟨fun a b => ⟨a.val - b.val, a.sb && !b.sb⟩⟩
noncomputable instance : Neg SX := ⟨fun a => ⟨-a.val, !a.neg⟩⟩
noncomputable instance : Mul SX := ⟨fun a b => ⟨a.val * b.val, xor a.sb b.sb⟩⟩
noncomputable instance : Div SX := ⟨fun a b => ⟨divVal a b, xor a.sb b.sb⟩⟩
noncomputable instance : Pow SX ℕ := ⟨fun a n => ⟨a.val ^ n, a.sb && decide (n % 2 = 1)⟩⟩
noncomputable instance : NatCast SX := ⟨fun n => ⟨fin n, false⟩⟩

noncomputable instance : JFun SX where
  pi := ⟨JFun.pi, false⟩
  sqrt a := ⟨JFun.sqrt a.val, a.sb⟩
  cbrt a := ⟨JFun.cbrt a.val, a.sb⟩
  sin a := ⟨JFun.sin a.val, a.sb⟩
  cos a := ⟨JFun.cos a.val, false⟩
  sinh a := ⟨JFun.sinh a.val, a.sb⟩
  cosh a := ⟨JFun.cosh a.val, false⟩
  log a := ⟨JFun.log a.val, false⟩
  arccos a := ⟨JFun.arccos a.val, false⟩
  arctan2 a b := ⟨atan2Val a b, a.sb⟩
  abs a := ⟨JFun.abs a.val, false⟩
  maximum a b := ⟨JFun.maximum a.val b.val, a.sb && b.sb⟩
  floor a := ⟨JFun.floor a.val, a.sb⟩
  onesLike _ := ⟨fin 1, false⟩
  item a := a
  lt a b := JFun.lt a.val b.val

/-- A positive zero or any other real number. -/
noncomputable def pos (x : ℝ) : SX := ⟨fin x, false⟩
/-- `-0` -/
noncomputable def nzero : SX := ⟨fin 0, true⟩

/-- `a` is the real number `x`, with either zero for `x = 0`. -/
def Val (a : SX) (x : ℝ) : Prop := a.val = fin x

/-- Componentwise. -/
structure ValV (a : V3 SX) (u : V3 ℝ) : Prop where
  x : Val a.x u.x
  y : Val a.y u.y
  z : Val a.z u.z

/-- Entrywise. -/
structure ValM (a : M3 SX) (x : M3 ℝ) : Prop where
  r0 : ValV a.r0 x.r0
  r1 : ValV a.r1 x.r1
  r2 : ValV a.r2 x.r2

theorem sb_of_ne {a : SX} {x : ℝ} (h : Val a x) (h0 : x ≠ 0) : a.sb = decide (x < 0) := by
  unfold sb; rw [h]; exact if_neg h0
theorem sb_zero {a : SX} (h : Val a 0) : a.sb = a.neg := by
  unfold sb; rw [h]; exact if_pos rfl
theorem sb_pos {a : SX} {x : ℝ} (h : Val a x) (h0 : 0 < x) : a.sb = false := by
  rw [sb_of_ne h h0.ne', decide_eq_false (not_lt.2 h0.le)]
theorem sb_neg {a : SX} {x : ℝ} (h : Val a x) (h0 : x < 0) : a.sb = true := by
  rw [sb_of_ne h h0.ne, decide_eq_true h0]

namespace Val
variable {a b : SX} {x y : ℝ}
theorem cast (n : ℕ) : Val n n := rfl
theorem lit0 : Val ((0 : ℕ) : SX) 0 := by show fin ((0 : ℕ) : ℝ) = _; simp
theorem pi : Val JFun.pi Real.pi := rfl
theorem add (ha : Val a x) (hb : Val b y) : Val (a + b) (x + y) := by
  show a.val + b.val = _; rw [ha, hb]; rfl
theorem sub (ha : Val a x) (hb : Val b y) : Val (a - b) (x - y) := by
  show a.val - b.val = _; rw [ha, hb]; simp
theorem mul (ha : Val a x) (hb : Val b y) : Val (a * b) (x * y) := by
  show a.val * b.val = _; rw [ha, hb]; rfl
theorem neg (ha : Val a x) : Val (-a) (-x) := by
  show -a.val = _; rw [ha]; rfl
theorem pow (ha : Val a x) (n : ℕ) : Val (a ^ n) (x ^ n) := by
  show a.val ^ n = _; rw [ha]; simp
/-- The only condition on a quotient: the divisor is not zero. -/
theorem div (ha : Val a x) (hb : Val b y) (h : y ≠ 0) : Val (a / b) (x / y) := by
  show divVal a b = _
  unfold divVal; rw [ha, hb]; exact if_neg h
theorem sqrt (ha : Val a x) (h : 0 ≤ x) : Val (JFun.sqrt a) (Real.sqrt x) := by
  show JFun.sqrt a.val = _; rw [ha]; exact XR.sqrt_fin h
theorem cbrt (ha : Val a x) : Val (JFun.cbrt a) (realCbrt x) := by
  show JFun.cbrt a.val = _; rw [ha]; rfl
theorem sin (ha : Val a x) : Val (JFun.sin a) (Real.sin x) := by
  show JFun.sin a.val = _; rw [ha]; rfl
theorem cos (ha : Val a x) : Val (JFun.cos a) (Real.cos x) := by
  show JFun.cos a.val = _; rw [ha]; rfl
theorem sinh (ha : Val a x) : Val (JFun.sinh a) (Real.sinh x) := by
  show JFun.sinh a.val = _; rw [ha]; rfl
theorem cosh (ha : Val a x) : Val (JFun.cosh a) (Real.cosh x) := by
  show JFun.cosh a.val = _; rw [ha]; rfl
theorem log (ha : Val a x) (h : 0 < x) : Val (JFun.log a) (Real.log x) := by
  show JFun.log a.val = _; rw [ha]; exact XR.log_fin h
theorem arccos (ha : Val a x) (h : -1 ≤ x) (h' : x ≤ 1) : Val (JFun.arccos a) (Real.arccos x) := by
  show JFun.arccos a.val = _; rw [ha]; exact XR.arccos_fin h h'
theorem abs (ha : Val a x) : Val (JFun.abs a) |x| := by
  show JFun.abs a.val = _; rw [ha]; rfl
theorem maximum (ha : Val a x) (hb : Val b y) : Val (JFun.maximum a b) (max x y) := by
  show JFun.maximum a.val b.val = _; rw [ha, hb]; rfl
theorem floor (ha : Val a x) : Val (JFun.floor a) (⌊x⌋ : ℝ) := by
  show JFun.floor a.val = _; rw [ha]; rfl
theorem onesLike (a : SX) : Val (JFun.onesLike a) 1 := rfl
theorem lt (ha : Val a x) (hb : Val b y) : JFun.lt a b = decide (x < y) := by
  show JFun.lt a.val b.val = _; rw [ha, hb]; rfl

/-- `arctan2` off its cut does not see the signs of zeros. -/
theorem arctan2 (ha : Val a y) (hb : Val b x) (h : y ≠ 0 ∨ 0 < x) : Val (JFun.arctan2 a b) (Complex.arg ⟨x, y⟩) := by
  show atan2Val a b = _
  unfold atan2Val; rw [ha, hb]
  show (if y = 0 then _ else _) = _
  by_cases h0 : y = 0
  · have hx : 0 < x := h.resolve_left (not_not.2 h0)
    rw [if_pos h0, sb_pos hb hx, h0]
    have : (⟨x, 0⟩ : ℂ) = (x : ℂ) := rfl
    rw [this, Complex.arg_ofReal_of_nonneg hx.le]; rfl
  · rw [if_neg h0]

/-- On the cut, with a positive first argument. -/
theorem arctan2_cut (ha : Val a 0) (hn : a.neg = false) (hb : Val b x) (h : x < 0) :
    Val (JFun.arctan2 a b) (Complex.arg ⟨x, 0⟩) := by
  show atan2Val a b = _
  unfold atan2Val; rw [ha, hb]
  show (if (0 : ℝ) = 0 then _ else _) = _
  rw [if_pos rfl, sb_neg hb h, sb_zero ha, hn]
  have : (⟨x, 0⟩ : ℂ) = (x : ℂ) := rfl
  rw [this, Complex.arg_ofReal_of_neg h]; rfl

theorem ite {p : Bool} {q : Prop} [Decidable q] (h : p = decide q) {c d : SX} {u w : ℝ} (h1 : q → Val c u) (h2 : ¬ q → Val d w) :
    Val (if p then c else d) (if q then u else w) := by
  subst h
  by_cases hq : q
  · simpa [hq] using h1 hq
  · simpa [hq] using h2 hq
end Val

namespace ValV
variable {a b : V3 SX} {x y : V3 ℝ} {k : SX} {c : ℝ}
theorem add (ha : ValV a x) (hb : ValV b y) : ValV (a + b) (x + y) := ⟨ha.x.add hb.x, ha.y.add hb.y, ha.z.add hb.z⟩
theorem sub (ha : ValV a x) (hb : ValV b y) : ValV (a - b) (x - y) := ⟨ha.x.sub hb.x, ha.y.sub hb.y, ha.z.sub hb.z⟩
theorem neg (ha : ValV a x) : ValV (-a) (-x) := ⟨ha.x.neg, ha.y.neg, ha.z.neg⟩
theorem smul (hk : Val k c) (ha : ValV a x) : ValV (k • a) (c • x) := ⟨hk.mul ha.x, hk.mul ha.y, hk.mul ha.z⟩
theorem div (ha : ValV a x) (hk : Val k c) (h : c ≠ 0) : ValV (a / k) (x / c) := ⟨ha.x.div hk h, ha.y.div hk h, ha.z.div hk h⟩
theorem dot (ha : ValV a x) (hb : ValV b y) : Val (V3.dot a b) (V3.dot x y) :=
  ((ha.x.mul hb.x).add (ha.y.mul hb.y)).add (ha.z.mul hb.z)
theorem cross (ha : ValV a x) (hb : ValV b y) : ValV (V3.cross a b) (V3.cross x y) :=
  ⟨(ha.y.mul hb.z).sub (ha.z.mul hb.y), (ha.z.mul hb.x).sub (ha.x.mul hb.z), (ha.x.mul hb.y).sub (ha.y.mul hb.x)⟩
theorem norm (ha : ValV a x) : Val (V3.norm a) (V3.norm x) :=
  (ha.dot ha).sqrt (by unfold V3.dot; nlinarith [sq_nonneg x.x, sq_nonneg x.y, sq_nonneg x.z])

theorem sb_sq {a : SX} {x : ℝ} (h : Val a x) : (a * a).sb = false := by
  by_cases h0 : x = 0
  · subst h0
    have := h.mul h
    rw [mul_zero] at this
    rw [sb_zero this]
    show xor a.sb a.sb = false
    simp
  · exact sb_pos (h.mul h) (mul_self_pos.2 h0)
theorem sb_add {a b : SX} {x y : ℝ} (ha : Val a x) (hb : Val b y) (h1 : a.sb = false) (hx : 0 ≤ x) (hy : 0 ≤ y) :
    (a + b).sb = false := by
  rcases (add_nonneg hx hy).eq_or_lt with h | h
  · have := ha.add hb
    rw [← h] at this
    rw [sb_zero this]
    show (a.sb && b.sb) = false
    rw [h1]; rfl
  · exact sb_pos (ha.add hb) h

/-- A norm is never `-0`. -/
theorem norm_sb (ha : ValV a x) : (V3.norm a).sb = false := by
  have hd : (V3.dot a a).sb = false :=
    sb_add ((ha.x.mul ha.x).add (ha.y.mul ha.y)) (ha.z.mul ha.z)
      (sb_add (ha.x.mul ha.x) (ha.y.mul ha.y) (sb_sq ha.x) (mul_self_nonneg _) (mul_self_nonneg _))
      (add_nonneg (mul_self_nonneg _) (mul_self_nonneg _)) (mul_self_nonneg _)
  by_cases h0 : V3.norm x = 0
  · have := ha.norm
    rw [h0] at this
    rw [sb_zero this]
    exact hd
  · exact sb_pos ha.norm (lt_of_le_of_ne (Real.sqrt_nonneg _) (Ne.symm h0))
end ValV

namespace ValM
variable {a b : M3 SX} {x y : M3 ℝ} {k : SX} {c : ℝ} {u w : V3 SX} {p q : V3 ℝ}
theorem add (ha : ValM a x) (hb : ValM b y) : ValM (a + b) (x + y) := ⟨ha.r0.add hb.r0, ha.r1.add hb.r1, ha.r2.add hb.r2⟩
theorem sub (ha : ValM a x) (hb : ValM b y) : ValM (a - b) (x - y) := ⟨ha.r0.sub hb.r0, ha.r1.sub hb.r1, ha.r2.sub hb.r2⟩
theorem neg (ha : ValM a x) : ValM (-a) (-x) := ⟨ha.r0.neg, ha.r1.neg, ha.r2.neg⟩
theorem smul (hk : Val k c) (ha : ValM a x) : ValM (k • a) (c • x) := ⟨ha.r0.smul hk, ha.r1.smul hk, ha.r2.smul hk⟩
theorem div (ha : ValM a x) (hk : Val k c) (h : c ≠ 0) : ValM (a / k) (x / c) := ⟨ha.r0.div hk h, ha.r1.div hk h, ha.r2.div hk h⟩
theorem outer (hu : ValV u p) (hw : ValV w q) : ValM (M3.outer u w) (M3.outer p q) := ⟨hw.smul hu.x, hw.smul hu.y, hw.smul hu.z⟩
theorem eye : ValM (M3.eye : M3 SX) M3.eye :=
  ⟨⟨Val.cast _, Val.cast _, Val.cast _⟩, ⟨Val.cast _, Val.cast _, Val.cast _⟩, ⟨Val.cast _, Val.cast _, Val.cast _⟩⟩
theorem mulVec (ha : ValM a x) (hu : ValV u p) : ValV (M3.mulVec a u) (M3.mulVec x p) := ⟨ha.r0.dot hu, ha.r1.dot hu, ha.r2.dot hu⟩
theorem transpose (ha : ValM a x) : ValM (M3.transpose a) (M3.transpose x) :=
  ⟨⟨ha.r0.x, ha.r1.x, ha.r2.x⟩, ⟨ha.r0.y, ha.r1.y, ha.r2.y⟩, ⟨ha.r0.z, ha.r1.z, ha.r2.z⟩⟩
theorem mul (ha : ValM a x) (hb : ValM b y) : ValM (M3.mul a b) (M3.mul x y) := by
  refine ⟨⟨?_, ?_, ?_⟩, ⟨?_, ?_, ?_⟩, ⟨?_, ?_, ?_⟩⟩ <;>
    first
      | exact ha.r0.dot hb.transpose.r0 | exact ha.r0.dot hb.transpose.r1 | exact ha.r0.dot hb.transpose.r2
      | exact ha.r1.dot hb.transpose.r0 | exact ha.r1.dot hb.transpose.r1 | exact ha.r1.dot hb.transpose.r2
      | exact ha.r2.dot hb.transpose.r0 | exact ha.r2.dot hb.transpose.r1 | exact ha.r2.dot hb.transpose.r2
end ValM
end SX
end Adx
