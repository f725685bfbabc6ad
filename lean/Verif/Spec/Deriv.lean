import Verif.Vec
import Verif.Model.Dual
import Mathlib.Analysis.Calculus.Deriv.Basic

/-! # What a correct derivative is

`Tracks g s d`: the traced value `d` carries the value of the curve `g` at `s` and its derivative there. -/

namespace Adx
namespace Spec

/-- The tangent as a number: the symbolic zero is 0. -/
def Dual.dot (d : Dual ℝ) : ℝ := d.tan.getD 0

/-- `d` is the value of `g` at `s` together with the derivative of `g` at `s`. -/
structure Tracks (g : ℝ → ℝ) (s : ℝ) (d : Dual ℝ) : Prop where
  /-- the value -/
  val : d.val = g s
  /-- the derivative -/
  deriv : HasDerivAt g (Dual.dot d) s

/-- The same for vectors, entry by entry. -/
structure TracksV (g : ℝ → V3 ℝ) (s : ℝ) (d : V3 (Dual ℝ)) : Prop where
  /-- entry 0 -/
  x : Tracks (fun s => (g s).x) s d.x
  /-- entry 1 -/
  y : Tracks (fun s => (g s).y) s d.y
  /-- entry 2 -/
  z : Tracks (fun s => (g s).z) s d.z

end Spec
end Adx
