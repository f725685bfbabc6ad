import Verif.Spec.Jet
import Verif.Model.Rev

/-! # What a correct gradient with derivatives is

`RJet u v F s r`: the reverse-mode value `r` over `n`-fold traced values carries the jet of `F` at `s`, and its pullback
sends a cotangent that is the jet of `C` to the jets of `C · ∂F/∂u_i`, one for each input direction `u i`. -/

namespace Adx
namespace Spec
open Filter Topology

variable {E : Type} [NormedAddCommGroup E] [NormedSpace ℝ E] {ι : Type} {n : ℕ}

/-- A pullback that multiplies by the gradient of `F`, with all derivatives. A constant has none. -/
def PullsBack (u : ι → E) (v : ℕ → E) (F : E → ℝ) (s : E) : Option (DualN n → ι → DualN n) → Prop
  | some b => ∀ (C : E → ℝ) (ct : DualN n), Jet v C s ct → ∀ i, Jet v (fun y => C y * along (u i) F y) s (b ct i)
  | none => ∀ i, along (u i) F =ᶠ[𝓝 s] fun _ => 0

/-- `r` is the jet of `F` at `s` with a correct pullback. -/
structure RJet (u : ι → E) (v : ℕ → E) (F : E → ℝ) (s : E) (r : Rev ι (DualN n)) : Prop where
  /-- the value -/
  val : Jet v F s r.val
  /-- the pullback -/
  pull : PullsBack u v F s r.adj

/-- The same for vectors. -/
structure RJetV (u : ι → E) (v : ℕ → E) (F : E → V3 ℝ) (s : E) (r : V3 (Rev ι (DualN n))) : Prop where
  /-- entry 0 -/
  x : RJet u v (fun y => (F y).x) s r.x
  /-- entry 1 -/
  y : RJet u v (fun y => (F y).y) s r.y
  /-- entry 2 -/
  z : RJet u v (fun y => (F y).z) s r.z

/-- The same for matrices, row by row. -/
structure RJetM (u : ι → E) (v : ℕ → E) (F : E → M3 ℝ) (s : E) (r : M3 (Rev ι (DualN n))) : Prop where
  /-- row 0 -/
  r0 : RJetV u v (fun y => (F y).r0) s r.r0
  /-- row 1 -/
  r1 : RJetV u v (fun y => (F y).r1) s r.r1
  /-- row 2 -/
  r2 : RJetV u v (fun y => (F y).r2) s r.r2

end Spec
end Adx
