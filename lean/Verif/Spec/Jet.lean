import Verif.Vec
import Verif.Model.DualN
import Mathlib.Analysis.Calculus.ContDiff.Basic
import Mathlib.Analysis.Calculus.ContDiff.Defs

/-! # What correct derivatives of every order are

`Jet v F s d`: `F` is smooth at the point `s` of a normed space, and the `n`-fold traced value `d` carries `F s` and all
its mixed derivatives along the directions `v 0, …, v (n-1)`, each direction used at most once. -/

namespace Adx
namespace Spec
open Filter Topology
open scoped ContDiff

variable {E : Type} [NormedAddCommGroup E] [NormedSpace ℝ E]

/-- The derivative along `w`, as a function of the point. -/
noncomputable def along (w : E) (F : E → ℝ) : E → ℝ := fun y => fderiv ℝ F y w

/-- `d` carries the value of `F` at `x` and, level by level, its derivatives along `v`. A symbolic zero stands for a
derivative that vanishes near `x`. -/
def Carries (v : ℕ → E) (x : E) : (n : ℕ) → (E → ℝ) → DualN n → Prop
  | 0, F, d => d = F x
  | n + 1, F, d => Carries v x n F (Dual.val (α := DualN n) d) ∧
      match Dual.tan (α := DualN n) d with
      | some g => Carries v x n (along (v n) F) g
      | none => along (v n) F =ᶠ[𝓝 x] fun _ => 0

/-- `d` is the jet of the smooth function `F` at `s`. -/
structure Jet {n : ℕ} (v : ℕ → E) (F : E → ℝ) (s : E) (d : DualN n) : Prop where
  /-- `F` is smooth at `s` -/
  smooth : ContDiffAt ℝ ∞ F s
  /-- its value and derivatives -/
  jet : Carries v s n F d

/-- The same for vectors. -/
structure JetV {n : ℕ} (v : ℕ → E) (F : E → V3 ℝ) (s : E) (d : V3 (DualN n)) : Prop where
  /-- entry 0 -/
  x : Jet v (fun y => (F y).x) s d.x
  /-- entry 1 -/
  y : Jet v (fun y => (F y).y) s d.y
  /-- entry 2 -/
  z : Jet v (fun y => (F y).z) s d.z

/-- The same for matrices, row by row. -/
structure JetM {n : ℕ} (v : ℕ → E) (F : E → M3 ℝ) (s : E) (d : M3 (DualN n)) : Prop where
  /-- row 0 -/
  r0 : JetV v (fun y => (F y).r0) s d.r0
  /-- row 1 -/
  r1 : JetV v (fun y => (F y).r1) s d.r1
  /-- row 2 -/
  r2 : JetV v (fun y => (F y).r2) s d.r2

end Spec
end Adx
