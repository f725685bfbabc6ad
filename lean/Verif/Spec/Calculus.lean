import Verif.Vec
import Mathlib.Analysis.Calculus.Deriv.Add
import Mathlib.Analysis.Calculus.Deriv.Mul
import Mathlib.Analysis.Calculus.Deriv.Comp
import Mathlib.Analysis.Calculus.Deriv.Pow
import Mathlib.Analysis.Calculus.Deriv.Inv
import Mathlib.Analysis.SpecialFunctions.Sqrt

/-! # Derivatives of vector-valued curves -/

namespace Adx

/-- `f` is differentiable at `s` with derivative `f'`, component by component. -/
structure HasDerivV (f : ℝ → V3 ℝ) (f' : V3 ℝ) (s : ℝ) : Prop where
  /-- first component -/
  x : HasDerivAt (fun s => (f s).x) f'.x s
  /-- second component -/
  y : HasDerivAt (fun s => (f s).y) f'.y s
  /-- third component -/
  z : HasDerivAt (fun s => (f s).z) f'.z s

end Adx
