import Verif.XR
import Mathlib.Tactic.NormNum

/-!
# 32-bit integers next to floating point

`JN` is a `jax.numpy` number with its dtype: an `int32` or a `float32`. Sums, differences, products and integer powers of
`int32` are `int32` and wrap modulo `2^32`; `/` and the elementary functions convert to floating point; an operation with one
`float32` operand is a `float32` operation; a Python integer literal is weakly typed and takes the dtype of the other operand.
Floating point itself is `XR`: exact, with infinities and NaN.
Not for functions that call `vector_norm`: `jnp.linalg.norm` converts to floating point before it squares, `V3.norm` in the
model does not.
-/

namespace Adx

/-- A number with its dtype. -/
inductive JN where
  /-- `int32` -/
  | int (n : ℤ)
  /-- `float32` -/
  | flt (x : XR)

namespace JN

/-- Two's complement: the representative modulo `2^32` in `[-2^31, 2^31)`. -/
def wrap (n : ℤ) : ℤ := (n + 2147483648) % 4294967296 - 2147483648

/-- Conversion to floating point. -/
noncomputable def toX : JN → XR
  | int n => .fin n
  | flt x => x

/-- A binary operation with an `int32` and a `float32` version. -/
noncomputable def op (f : ℤ → ℤ → ℤ) (g : XR → XR → XR) : JN → JN → JN
  | int m, int n => int (wrap (f m n))
  | a, b => flt (g a.toX b.toX)

noncomputable instance : Add JN := ⟨op (· + ·) (· + ·)⟩
noncomputable instance : Sub JN := ⟨op (· - ·) (· - ·)⟩
noncomputable instance : Mul JN := ⟨op (· * ·) (· * ·)⟩
noncomputable instance : Div JN := ⟨fun a b => flt (a.toX / b.toX)⟩
noncomputable instance : Neg JN := ⟨fun
  | int n => int (wrap (-n))
  | flt x => flt (-x)⟩
instance : NatCast JN := ⟨fun n => int n⟩
/-- `x**n`; `int32` powers wrap -/
noncomputable instance : Pow JN ℕ := ⟨fun a n => match a with
  | int m => int (wrap (m ^ n))
  | flt x => flt (x ^ n)⟩

noncomputable instance : JFun JN where
  pi := flt JFun.pi
  sqrt a := flt (JFun.sqrt a.toX)
  cbrt a := flt (JFun.cbrt a.toX)
  sin a := flt (JFun.sin a.toX)
  cos a := flt (JFun.cos a.toX)
  sinh a := flt (JFun.sinh a.toX)
  cosh a := flt (JFun.cosh a.toX)
  log a := flt (JFun.log a.toX)
  arccos a := flt (JFun.arccos a.toX)
  arctan2 b a := flt (JFun.arctan2 b.toX a.toX)
  abs
    | int n => int (wrap |n|)
    | flt x => flt (JFun.abs x)
  maximum
    | int m, int n => int (max m n)
    | a, b => flt (JFun.maximum a.toX b.toX)
  floor a := flt (JFun.floor a.toX)
  onesLike
    | int _ => int 1
    | flt _ => flt (.fin 1)
  item a := a
  lt a b := JFun.lt a.toX b.toX

/-! ### Wrapping -/

theorem wrap_eq {n : ℤ} (h1 : -2147483648 ≤ n) (h2 : n < 2147483648) : wrap n = n := by
  unfold wrap; omega

theorem wrap_range (n : ℤ) : -2147483648 ≤ wrap n ∧ wrap n < 2147483648 := by
  unfold wrap; omega

theorem wrap_neg {n : ℤ} (h1 : 2147483648 ≤ n) (h2 : n < 4294967296) : wrap n < 0 := by
  unfold wrap; omega

theorem wrap_congr (n : ℤ) : (4294967296 : ℤ) ∣ wrap n - n := by
  unfold wrap; omega

theorem wrap_of_dvd {m n : ℤ} (h : (4294967296 : ℤ) ∣ m - n) : wrap m = wrap n := by
  unfold wrap; omega

/-- Wrapping the parts of a sum changes nothing. -/
theorem wrap_add (m n : ℤ) : wrap (wrap m + wrap n) = wrap (m + n) := by
  have h1 := wrap_congr m
  have h2 := wrap_congr n
  exact wrap_of_dvd (by omega)

theorem wrap_sub (m n : ℤ) : wrap (wrap m - wrap n) = wrap (m - n) := by
  have h1 := wrap_congr m
  have h2 := wrap_congr n
  exact wrap_of_dvd (by omega)

theorem wrap_mul (m n : ℤ) : wrap (wrap m * wrap n) = wrap (m * n) := by
  obtain ⟨a, ha⟩ := wrap_congr m
  obtain ⟨b, hb⟩ := wrap_congr n
  refine wrap_of_dvd ⟨a * wrap n + m * b, ?_⟩
  have h1 : wrap m = m + 4294967296 * a := by omega
  have h2 : wrap n = n + 4294967296 * b := by omega
  rw [h1, h2]; ring

section Simp
variable (m n : ℤ) (x y : XR) (a b : JN)
@[simp] theorem toX_int : (int n).toX = .fin n := rfl
@[simp] theorem toX_flt : (flt x).toX = x := rfl
@[simp] theorem add_int : int m + int n = int (wrap (m + n)) := rfl
@[simp] theorem sub_int : int m - int n = int (wrap (m - n)) := rfl
@[simp] theorem mul_int : int m * int n = int (wrap (m * n)) := rfl
@[simp] theorem add_flt : a + flt x = flt (a.toX + x) := by cases a <;> rfl
@[simp] theorem flt_add : flt x + a = flt (x + a.toX) := by cases a <;> rfl
@[simp] theorem sub_flt : a - flt x = flt (a.toX - x) := by cases a <;> rfl
@[simp] theorem flt_sub : flt x - a = flt (x - a.toX) := by cases a <;> rfl
@[simp] theorem mul_flt : a * flt x = flt (a.toX * x) := by cases a <;> rfl
@[simp] theorem flt_mul : flt x * a = flt (x * a.toX) := by cases a <;> rfl
@[simp] theorem div_jn : a / b = flt (a.toX / b.toX) := rfl
@[simp] theorem neg_int : -int n = int (wrap (-n)) := rfl
@[simp] theorem neg_flt : -flt x = flt (-x) := rfl
@[simp] theorem cast_jn (k : ℕ) : ((k : ℕ) : JN) = int k := rfl
@[simp] theorem ofNat_jn (k : ℕ) [k.AtLeastTwo] : (OfNat.ofNat k : JN) = int (OfNat.ofNat k) := rfl
@[simp] theorem pow_int (k : ℕ) : int m ^ k = int (wrap (m ^ k)) := rfl
@[simp] theorem pow_flt (k : ℕ) : flt x ^ k = flt (x ^ k) := rfl
@[simp] theorem pi_jn : (JFun.pi : JN) = flt (.fin Real.pi) := rfl
@[simp] theorem sqrt_jn : JFun.sqrt a = flt (JFun.sqrt a.toX) := rfl
@[simp] theorem cbrt_jn : JFun.cbrt a = flt (JFun.cbrt a.toX) := rfl
@[simp] theorem sin_jn : JFun.sin a = flt (JFun.sin a.toX) := rfl
@[simp] theorem cos_jn : JFun.cos a = flt (JFun.cos a.toX) := rfl
@[simp] theorem sinh_jn : JFun.sinh a = flt (JFun.sinh a.toX) := rfl
@[simp] theorem cosh_jn : JFun.cosh a = flt (JFun.cosh a.toX) := rfl
@[simp] theorem log_jn : JFun.log a = flt (JFun.log a.toX) := rfl
@[simp] theorem floor_jn : JFun.floor a = flt (JFun.floor a.toX) := rfl
@[simp] theorem abs_int : JFun.abs (int n) = int (wrap |n|) := rfl
@[simp] theorem abs_flt : JFun.abs (flt x) = flt (JFun.abs x) := rfl
@[simp] theorem lt_jn : JFun.lt a b = JFun.lt a.toX b.toX := rfl
@[simp] theorem item_jn : JFun.item a = a := rfl
@[simp] theorem ones_int : JFun.onesLike (int n) = int 1 := rfl
@[simp] theorem ones_flt : JFun.onesLike (flt x) = flt (.fin 1) := rfl
@[simp] theorem max_int : JFun.maximum (int m) (int n) = int (max m n) := rfl
end Simp

/-- The same number as a `float32`. -/
noncomputable def up (a : JN) : JN := flt a.toX

@[simp] theorem toX_up (a : JN) : a.up.toX = a.toX := rfl
@[simp] theorem up_int (n : ℤ) : (int n).up = flt (.fin n) := rfl
@[simp] theorem up_flt (x : XR) : (flt x).up = flt x := rfl

/-- dtype of the number: `true` for `float32`. -/
def isFloat : JN → Bool
  | int _ => false
  | flt _ => true

end JN
end Adx
