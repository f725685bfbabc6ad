import Verif.Vec

/-!
# Exact arithmetic with the IEEE special values

`XR` is the real line with `+inf`, `-inf` and `nan`, with the operations IEEE 754 and `jax.numpy`
define on them. Lean's real division has `x / 0 = 0`, `sqrt` of a negative number `0`, `arccos`
outside `[-1, 1]` clamped; here these are `±inf` or `nan` as in the running code, so a theorem about
`XR` does not rest on those conventions.
Simplifications: no rounding, no overflow, and one zero only (`0` is read as `+0`, so `1 / 0 = +inf`).
-/

namespace Adx

/-- A real number, an infinity, or not-a-number. -/
inductive XR where
  /-- a finite number -/
  | fin (x : ℝ)
  /-- `+inf` -/
  | pinf
  /-- `-inf` -/
  | ninf
  /-- `nan` -/
  | nan

namespace XR

/-- An infinity with the sign of `s`; `nan` for `s = 0`. -/
noncomputable def infOf (s : ℝ) : XR := if 0 < s then pinf else if s < 0 then ninf else nan

/-- IEEE addition -/
noncomputable def add : XR → XR → XR
  | fin x, fin y => fin (x + y)
  | nan, _ => nan
  | _, nan => nan
  | pinf, ninf => nan
  | ninf, pinf => nan
  | pinf, _ => pinf
  | _, pinf => pinf
  | ninf, _ => ninf
  | _, ninf => ninf

/-- IEEE negation -/
noncomputable def neg : XR → XR
  | fin x => fin (-x)
  | pinf => ninf
  | ninf => pinf
  | nan => nan

/-- IEEE multiplication -/
noncomputable def mul : XR → XR → XR
  | fin x, fin y => fin (x * y)
  | nan, _ => nan
  | _, nan => nan
  | pinf, fin y => infOf y
  | ninf, fin y => infOf (-y)
  | fin x, pinf => infOf x
  | fin x, ninf => infOf (-x)
  | pinf, pinf => pinf
  | ninf, ninf => pinf
  | pinf, ninf => ninf
  | ninf, pinf => ninf

/-- IEEE division, zero being positive zero -/
noncomputable def div : XR → XR → XR
  | fin x, fin y => if y = 0 then infOf x else fin (x / y)
  | nan, _ => nan
  | _, nan => nan
  | pinf, fin y => if 0 ≤ y then pinf else ninf
  | ninf, fin y => if 0 ≤ y then ninf else pinf
  | fin _, _ => fin 0
  | _, _ => nan

noncomputable instance : Add XR := ⟨add⟩
noncomputable instance : Neg XR := ⟨neg⟩
noncomputable instance : Sub XR := ⟨fun x y => add x (neg y)⟩
noncomputable instance : Mul XR := ⟨mul⟩
noncomputable instance : Div XR := ⟨div⟩
noncomputable instance : NatCast XR := ⟨fun n => fin n⟩
/-- `x**n` by repeated multiplication -/
noncomputable def powNat (x : XR) : ℕ → XR
  | 0 => fin 1
  | n + 1 => powNat x n * x
noncomputable instance : Pow XR ℕ := ⟨powNat⟩

/-- A function defined on finite numbers, with given values at the infinities; `nan` to `nan`. -/
noncomputable def lift (f : ℝ → XR) (atP atN : XR) : XR → XR
  | fin x => f x
  | pinf => atP
  | ninf => atN
  | nan => nan

/-- `jnp.arctan2(y, x)` -/
noncomputable def arctan2 : XR → XR → XR
  | fin y, fin x => fin (Complex.arg ⟨x, y⟩)
  | nan, _ => nan
  | _, nan => nan
  | fin _, pinf => fin 0
  | fin y, ninf => if 0 ≤ y then fin Real.pi else fin (-Real.pi)
  | pinf, fin _ => fin (Real.pi / 2)
  | ninf, fin _ => fin (-(Real.pi / 2))
  | pinf, pinf => fin (Real.pi / 4)
  | pinf, ninf => fin (3 * Real.pi / 4)
  | ninf, pinf => fin (-(Real.pi / 4))
  | ninf, ninf => fin (-(3 * Real.pi / 4))

/-- `a < b`; every comparison with `nan` is false -/
noncomputable def lt : XR → XR → Bool
  | fin x, fin y => decide (x < y)
  | nan, _ => false
  | _, nan => false
  | ninf, ninf => false
  | ninf, _ => true
  | fin _, pinf => true
  | _, _ => false

/-- `jnp.maximum`, which propagates `nan` -/
noncomputable def maximum : XR → XR → XR
  | fin x, fin y => fin (max x y)
  | nan, _ => nan
  | _, nan => nan
  | pinf, _ => pinf
  | _, pinf => pinf
  | ninf, y => y
  | x, ninf => x

noncomputable instance : JFun XR where
  pi := fin Real.pi
  sqrt := lift (fun x => if x < 0 then nan else fin (Real.sqrt x)) pinf nan
  cbrt := lift (fun x => fin (realCbrt x)) pinf ninf
  sin := lift (fun x => fin (Real.sin x)) nan nan
  cos := lift (fun x => fin (Real.cos x)) nan nan
  sinh := lift (fun x => fin (Real.sinh x)) pinf ninf
  cosh := lift (fun x => fin (Real.cosh x)) pinf pinf
  log := lift (fun x => if x < 0 then nan else if x = 0 then ninf else fin (Real.log x)) pinf nan
  arccos := lift (fun x => if x < -1 ∨ 1 < x then nan else fin (Real.arccos x)) nan nan
  arctan2 := arctan2
  abs := lift (fun x => fin |x|) pinf pinf
  maximum := maximum
  floor := lift (fun x => fin (⌊x⌋ : ℝ)) pinf ninf
  onesLike := fun _ => fin 1
  item := fun x => x
  lt := lt

section Simp
variable (x y : ℝ) (a : XR)
@[simp] theorem fin_add : fin x + fin y = fin (x + y) := rfl
@[simp] theorem fin_neg : -fin x = fin (-x) := rfl
@[simp] theorem fin_sub : fin x - fin y = fin (x - y) := by
  change fin (x + -y) = _; rw [sub_eq_add_neg]
@[simp] theorem fin_mul : fin x * fin y = fin (x * y) := rfl
@[simp] theorem fin_pow (n : ℕ) : (fin x) ^ n = fin (x ^ n) := by
  change powNat (fin x) n = _
  induction n with
  | zero => simp [powNat]
  | succ n ih => rw [powNat, ih, pow_succ]; rfl
@[simp] theorem cast_fin (n : ℕ) : ((n : ℕ) : XR) = fin (n : ℝ) := rfl
@[simp] theorem ofNat_fin (n : ℕ) [n.AtLeastTwo] : (OfNat.ofNat n : XR) = fin (OfNat.ofNat n) := by
  change fin ((OfNat.ofNat n : ℕ) : ℝ) = _; rw [Nat.cast_ofNat]
theorem fin_div_def : fin x / fin y = if y = 0 then infOf x else fin (x / y) := rfl
theorem fin_div {y : ℝ} (h : y ≠ 0) : fin x / fin y = fin (x / y) := by
  rw [fin_div_def, if_neg h]
@[simp] theorem fin_div_zero : fin x / fin 0 = infOf x := by rw [fin_div_def, if_pos rfl]
@[simp] theorem fin_div_lit (n : ℕ) [NeZero n] : fin x / fin (n : ℝ) = fin (x / (n : ℝ)) :=
  fin_div x (by exact_mod_cast NeZero.ne n)
@[simp] theorem fin_div_ofNat (n : ℕ) [n.AtLeastTwo] :
    fin x / fin (OfNat.ofNat n : ℝ) = fin (x / (OfNat.ofNat n : ℝ)) :=
  fin_div x (by exact OfNat.ofNat_ne_zero n)
@[simp] theorem fin_div_pinf : fin x / pinf = fin 0 := rfl
@[simp] theorem fin_div_ninf : fin x / ninf = fin 0 := rfl
@[simp] theorem pinf_mul_fin : pinf * fin y = infOf y := rfl
@[simp] theorem ninf_mul_fin : ninf * fin y = infOf (-y) := rfl
@[simp] theorem fin_mul_pinf : fin x * pinf = infOf x := rfl
@[simp] theorem fin_mul_ninf : fin x * ninf = infOf (-x) := rfl
@[simp] theorem pinf_sub_fin : pinf - fin x = pinf := rfl
@[simp] theorem pinf_add_fin : pinf + fin x = pinf := rfl
@[simp] theorem fin_sub_pinf : fin x - pinf = ninf := rfl
@[simp] theorem neg_pinf : -pinf = ninf := rfl
@[simp] theorem neg_ninf : -ninf = pinf := rfl
@[simp] theorem neg_nan : -nan = nan := rfl
@[simp] theorem nan_add : nan + a = nan := by cases a <;> rfl
@[simp] theorem add_nan : a + nan = nan := by cases a <;> rfl
@[simp] theorem nan_sub : nan - a = nan := by cases a <;> rfl
@[simp] theorem sub_nan : a - nan = nan := by cases a <;> rfl
@[simp] theorem nan_mul : nan * a = nan := by cases a <;> rfl
@[simp] theorem mul_nan : a * nan = nan := by cases a <;> rfl
@[simp] theorem nan_div : nan / a = nan := by cases a <;> rfl
@[simp] theorem div_nan : a / nan = nan := by cases a <;> rfl
@[simp] theorem nan_pow (n : ℕ) : nan ^ (n + 1) = nan := by
  change powNat nan n * nan = nan; simp
theorem infOf_pos {x : ℝ} (h : 0 < x) : infOf x = pinf := if_pos h
theorem infOf_neg {x : ℝ} (h : x < 0) : infOf x = ninf := by
  rw [infOf, if_neg (not_lt.2 h.le), if_pos h]
@[simp] theorem infOf_zero : infOf 0 = nan := by simp [infOf]
@[simp] theorem pi_fin : (JFun.pi : XR) = fin Real.pi := rfl
theorem sqrt_fin {x : ℝ} (h : 0 ≤ x) : JFun.sqrt (fin x) = fin (Real.sqrt x) :=
  if_neg (not_lt.2 h)
theorem sqrt_neg {x : ℝ} (h : x < 0) : JFun.sqrt (fin x) = nan := if_pos h
@[simp] theorem sqrt_pinf : JFun.sqrt pinf = pinf := rfl
@[simp] theorem sqrt_ninf : JFun.sqrt ninf = nan := rfl
@[simp] theorem sqrt_nan : JFun.sqrt nan = nan := rfl
@[simp] theorem cbrt_fin : JFun.cbrt (fin x) = fin (realCbrt x) := rfl
@[simp] theorem sin_fin : JFun.sin (fin x) = fin (Real.sin x) := rfl
@[simp] theorem cos_fin : JFun.cos (fin x) = fin (Real.cos x) := rfl
@[simp] theorem sinh_fin : JFun.sinh (fin x) = fin (Real.sinh x) := rfl
@[simp] theorem cosh_fin : JFun.cosh (fin x) = fin (Real.cosh x) := rfl
@[simp] theorem sin_nan : JFun.sin nan = nan := rfl
@[simp] theorem cos_nan : JFun.cos nan = nan := rfl
@[simp] theorem sin_pinf : JFun.sin pinf = nan := rfl
@[simp] theorem cos_pinf : JFun.cos pinf = nan := rfl
@[simp] theorem sin_ninf : JFun.sin ninf = nan := rfl
@[simp] theorem cos_ninf : JFun.cos ninf = nan := rfl
theorem log_fin {x : ℝ} (h : 0 < x) : JFun.log (fin x) = fin (Real.log x) := by
  change (if x < 0 then nan else if x = 0 then ninf else fin (Real.log x)) = _
  rw [if_neg (not_lt.2 h.le), if_neg h.ne']
theorem arccos_fin {x : ℝ} (h : -1 ≤ x) (h' : x ≤ 1) :
    JFun.arccos (fin x) = fin (Real.arccos x) :=
  if_neg (by push Not; exact ⟨h, h'⟩)
@[simp] theorem arccos_nan : JFun.arccos nan = nan := rfl
@[simp] theorem arctan2_fin : JFun.arctan2 (fin y) (fin x) = fin (Complex.arg ⟨x, y⟩) := rfl
@[simp] theorem abs_fin : JFun.abs (fin x) = fin |x| := rfl
@[simp] theorem abs_nan : JFun.abs nan = nan := rfl
@[simp] theorem maximum_fin : JFun.maximum (fin x) (fin y) = fin (max x y) := rfl
@[simp] theorem floor_fin : JFun.floor (fin x) = fin (⌊x⌋ : ℝ) := rfl
@[simp] theorem onesLike_xr (x : XR) : JFun.onesLike x = fin 1 := rfl
@[simp] theorem item_xr (x : XR) : JFun.item x = x := rfl
@[simp] theorem lt_fin : JFun.lt (fin x) (fin y) = decide (x < y) := rfl
@[simp] theorem lt_nan : JFun.lt a nan = false := by cases a <;> rfl
@[simp] theorem nan_lt : JFun.lt nan a = false := by cases a <;> rfl
@[simp] theorem fin_lt_pinf : JFun.lt (fin x) pinf = true := rfl
@[simp] theorem pinf_lt_fin : JFun.lt pinf (fin x) = false := rfl
@[simp] theorem fin_inj : fin x = fin y ↔ x = y := by
  constructor
  · intro h; injection h
  · rintro rfl; rfl
end Simp

/-- A finite vector. -/
noncomputable def vec (v : V3 ℝ) : V3 XR := ⟨fin v.x, fin v.y, fin v.z⟩
/-- A finite matrix. -/
noncomputable def mat (m : M3 ℝ) : M3 XR := ⟨vec m.r0, vec m.r1, vec m.r2⟩

section Vec
variable (u v : V3 ℝ) (k : ℝ)
@[simp] theorem vec_x : (vec v).x = fin v.x := rfl
@[simp] theorem vec_y : (vec v).y = fin v.y := rfl
@[simp] theorem vec_z : (vec v).z = fin v.z := rfl
@[simp] theorem vec_mk (x y z : ℝ) : (⟨fin x, fin y, fin z⟩ : V3 XR) = vec ⟨x, y, z⟩ := rfl
@[simp] theorem mat_r0 (m : M3 ℝ) : (mat m).r0 = vec m.r0 := rfl
@[simp] theorem mat_r1 (m : M3 ℝ) : (mat m).r1 = vec m.r1 := rfl
@[simp] theorem mat_r2 (m : M3 ℝ) : (mat m).r2 = vec m.r2 := rfl
@[simp] theorem mat_mk (a b c : V3 ℝ) : (⟨vec a, vec b, vec c⟩ : M3 XR) = mat ⟨a, b, c⟩ := rfl
@[simp] theorem vec_add : vec u + vec v = vec (u + v) := rfl
@[simp] theorem vec_sub : vec u - vec v = vec (u - v) := by
  ext <;> simp
@[simp] theorem vec_neg : -vec u = vec (-u) := rfl
@[simp] theorem vec_smul : fin k • vec u = vec (k • u) := rfl
theorem vec_div {k : ℝ} (h : k ≠ 0) : vec u / fin k = vec (u / k) := by
  ext <;> simp [fin_div _ h]
@[simp] theorem vec_dot : V3.dot (vec u) (vec v) = fin (V3.dot u v) := rfl
@[simp] theorem vec_cross : V3.cross (vec u) (vec v) = vec (V3.cross u v) := by
  ext <;> simp
@[simp] theorem vec_norm : V3.norm (vec u) = fin (V3.norm u) := by
  unfold V3.norm
  rw [vec_dot, sqrt_fin, sqrt_real]
  unfold V3.dot
  nlinarith [sq_nonneg u.x, sq_nonneg u.y, sq_nonneg u.z]
variable (A B : M3 ℝ)
@[simp] theorem mat_add : mat A + mat B = mat (A + B) := rfl
@[simp] theorem mat_sub : mat A - mat B = mat (A - B) := by
  ext <;> simp
@[simp] theorem mat_neg : -mat A = mat (-A) := rfl
@[simp] theorem mat_smul : fin k • mat A = mat (k • A) := rfl
theorem mat_div {k : ℝ} (h : k ≠ 0) : mat A / fin k = mat (A / k) := by
  ext <;> simp [fin_div _ h]
@[simp] theorem mat_outer : M3.outer (vec u) (vec v) = mat (M3.outer u v) := rfl
@[simp] theorem mat_eye : (M3.eye : M3 XR) = mat M3.eye := rfl
@[simp] theorem mat_mulVec : M3.mulVec (mat A) (vec u) = vec (M3.mulVec A u) := rfl
@[simp] theorem mat_mul : M3.mul (mat A) (mat B) = mat (M3.mul A B) := rfl
end Vec

end XR
end Adx
