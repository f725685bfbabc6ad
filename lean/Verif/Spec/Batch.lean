import Verif.Model.NDArray
import Verif.Vec

/-! # Batches of vectors

A batch of vectors of batch shape `s` is the array of shape `s + (3,)` whose last axis runs over the components. -/

namespace Adx.Spec

/-- Component `j` of a vector. -/
def comp3 {α : Type} (v : V3 α) : ℕ → α
  | 0 => v.x
  | 1 => v.y
  | _ => v.z

/-- Row `i` of a matrix. -/
def row3 {α : Type} (m : M3 α) : ℕ → V3 α
  | 0 => m.r0
  | 1 => m.r1
  | _ => m.r2

variable {α γ : Type}

/-- The array of shape `s + (3,)` holding a batch of vectors. -/
def vecs (P : ND (V3 α)) : ND α := ⟨P.shape ++ [3], fun idx => comp3 (P.get fun k => idx (k + 1)) (idx 0)⟩

/-- The array of shape `s + (1,)` holding a batch of numbers. -/
def keep (M : ND α) : ND α := ⟨M.shape ++ [1], fun idx => M.get fun k => idx (k + 1)⟩

/-- The array of shape `s + (3, 3)` holding a batch of matrices. -/
def mats (R : ND (M3 α)) : ND α :=
  ⟨R.shape ++ [3, 3], fun idx => comp3 (row3 (R.get fun k => idx (k + 2)) (idx 1)) (idx 0)⟩

/-- `x` is the batch over the broadcast shape of `shapes` with entries `g`; if there is no broadcast shape it is an
exception. -/
structure IsBatch (shapes : List (List ℕ)) (x : Arr γ) (g : (ℕ → ℕ) → γ) : Prop where
  ok : ∀ s, IsBroadcast shapes s → ∃ A : ND γ, x = .ok A ∧ A.shape = s ∧ ∀ idx, InShape s idx → A.get idx = g idx
  err : (¬ ∃ s, IsBroadcast shapes s) → ∃ e, x = .error e

/-- The entry of `P` that is used at index `idx` of a broadcast result. -/
def ND.at (P : ND γ) (idx : ℕ → ℕ) : γ := P.get (operandIdx P.shape idx)

/-- Every array of shape `s + (3,)` is a batch of vectors (its entries inside the shape). -/
theorem vecs_surjective (a : ND α) (s : List ℕ) (h : a.shape = s ++ [3]) :
    ∃ P : ND (V3 α), P.shape = s ∧ (vecs P).shape = a.shape ∧
      ∀ idx, InShape a.shape idx → (vecs P).get idx = a.get idx := by
  let at' (idx : ℕ → ℕ) (j : ℕ) : α := a.get (fun k => Nat.casesOn k j idx)
  refine ⟨⟨s, fun idx => ⟨at' idx 0, at' idx 1, at' idx 2⟩⟩, rfl, h.symm, fun idx hi => ?_⟩
  have h0 : idx 0 < 3 := by
    have := hi 0
    rwa [h, dimR, List.reverse_append] at this
  have hidx : ∀ j, idx 0 = j → (fun k => (Nat.casesOn k j fun k => idx (k + 1) : ℕ)) = idx := by
    intro j hj; funext k; cases k <;> simp [hj]
  simp only [vecs, at']
  have : idx 0 = 0 ∨ idx 0 = 1 ∨ idx 0 = 2 := by omega
  rcases this with h1 | h1 | h1 <;> rw [h1] <;> simp only [comp3] <;> rw [hidx _ h1]

end Adx.Spec

namespace Adx.Spec
variable {α γ : Type}

/-- The multi-index `idx` with a further last axis at position `j`. -/
def withLast (j : ℕ) (idx : ℕ → ℕ) : ℕ → ℕ := fun k => if k = 0 then j else idx (k - 1)

/-- `x` is an array of shape `s + (3,)`, `s` the broadcast shape of `shapes`, holding the vectors `g idx`. -/
structure IsBatchV (shapes : List (List ℕ)) (x : Arr γ) (g : (ℕ → ℕ) → V3 γ) : Prop where
  ok : ∀ s, IsBroadcast shapes s → ∃ A : ND γ, x = .ok A ∧ A.shape = s ++ [3] ∧ ∀ idx, InShape s idx →
    A.get (withLast 0 idx) = (g idx).x ∧ A.get (withLast 1 idx) = (g idx).y ∧ A.get (withLast 2 idx) = (g idx).z
  err : (¬ ∃ s, IsBroadcast shapes s) → ∃ e, x = .error e

/-- The same for numbers, with a last axis of length 1 (`keepdims=True`). -/
structure IsBatchK (shapes : List (List ℕ)) (x : Arr γ) (g : (ℕ → ℕ) → γ) : Prop where
  ok : ∀ s, IsBroadcast shapes s → ∃ A : ND γ, x = .ok A ∧ A.shape = s ++ [1] ∧ ∀ idx, InShape s idx →
    A.get (withLast 0 idx) = g idx
  err : (¬ ∃ s, IsBroadcast shapes s) → ∃ e, x = .error e

/-- The same for 3×3 matrices. -/
structure IsBatchM (shapes : List (List ℕ)) (x : Arr γ) (g : (ℕ → ℕ) → M3 γ) : Prop where
  ok : ∀ s, IsBroadcast shapes s → ∃ A : ND γ, x = .ok A ∧ A.shape = s ++ [3, 3] ∧ ∀ idx, InShape s idx →
    ∀ i < 3, ∀ j < 3, A.get (withLast j (withLast i idx)) = comp3 (row3 (g idx) i) j
  err : (¬ ∃ s, IsBroadcast shapes s) → ∃ e, x = .error e

end Adx.Spec
