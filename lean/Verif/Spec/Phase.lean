import Verif.Model.StateTrans
import Mathlib.Data.Matrix.Block

/-! # Phase space `ℝ⁶` as functions on `Fin 3 ⊕ Fin 3` and the matrix of a block array -/

namespace Adx

/-- The position part of a phase-space point. -/
def posOf (x : Fin 3 ⊕ Fin 3 → ℝ) : V3 ℝ := ⟨x (.inl 0), x (.inl 1), x (.inl 2)⟩
/-- The velocity part of a phase-space point. -/
def velOf (x : Fin 3 ⊕ Fin 3 → ℝ) : V3 ℝ := ⟨x (.inr 0), x (.inr 1), x (.inr 2)⟩
/-- The coordinates of a vector. -/
def V3.coord (a : V3 ℝ) : Fin 3 → ℝ := ![a.x, a.y, a.z]
/-- The phase-space point with given position and velocity. -/
def phase (q : V3 ℝ × V3 ℝ) : Fin 3 ⊕ Fin 3 → ℝ := Sum.elim q.1.coord q.2.coord

/-- A `(3, 3)` array as a Mathlib matrix. -/
def M3.mat (m : M3 ℝ) : Matrix (Fin 3) (Fin 3) ℝ :=
  !![m.r0.x, m.r0.y, m.r0.z; m.r1.x, m.r1.y, m.r1.z; m.r2.x, m.r2.y, m.r2.z]

/-- A block array as a Mathlib matrix. -/
def B6.mat (b : B6 ℝ) : Matrix (Fin 3 ⊕ Fin 3) (Fin 3 ⊕ Fin 3) ℝ :=
  Matrix.fromBlocks b.rr.mat b.rv.mat b.vr.mat b.vv.mat

end Adx
