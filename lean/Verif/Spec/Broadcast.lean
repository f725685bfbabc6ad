import Mathlib.Data.List.Basic

/-! # Specification of NumPy broadcasting (independent of the model)

"Two (or more) shapes are compatible when, aligned at the last axis, in every axis the lengths are
equal or one of them is 1; missing axes count as 1." -/

namespace Adx.Spec

/-- Length along the `k`-th axis *from the right*; missing axes have length 1. -/
def dimR (s : List ℕ) (k : ℕ) : ℕ := s.reverse.getD k 1

/-- `s` is the broadcast shape of a collection of shapes. -/
def IsBroadcast (shapes : List (List ℕ)) (s : List ℕ) : Prop :=
  (∀ t ∈ shapes, t.length ≤ s.length) ∧ (s.length = 0 ∨ ∃ t ∈ shapes, t.length = s.length) ∧
  ∀ k < s.length, (∀ t ∈ shapes, dimR t k = 1 ∨ dimR t k = dimR s k) ∧
    ∃ t ∈ shapes, dimR t k = dimR s k

/-- A multi-index (numbered from the last axis) inside a shape. -/
def InShape (s : List ℕ) (idx : ℕ → ℕ) : Prop := ∀ k, idx k < dimR s k

/-- The entry of an operand of shape `t` that is used at index `idx` of the result: the same index,
except `0` along axes of length 1. -/
def operandIdx (t : List ℕ) (idx : ℕ → ℕ) : ℕ → ℕ := fun k => if dimR t k = 1 then 0 else idx k

end Adx.Spec
