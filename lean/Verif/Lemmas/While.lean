import Verif.Model.While
import Mathlib.Data.Nat.Find
import Mathlib.Tactic.Common

/-! # Facts about the loop combinators -/

namespace Adx
variable {σ : Type}

/-- Big-step semantics of a `while` loop, independent of `whileLoop`. -/
inductive WhileEval (cond : σ → Bool) (body : σ → σ) : σ → σ → Prop
  | stop {s : σ} : cond s = false → WhileEval cond body s s
  | step {s s' : σ} : cond s = true → WhileEval cond body (body s) s' → WhileEval cond body s s'

theorem whileLoop_of_iterate (cond : σ → Bool) (body : σ → σ) (k : ℕ) (s : σ)
    (hlt : ∀ j < k, cond (body^[j] s) = true) (hk : cond (body^[k] s) = false) :
    whileLoop cond body s = some (body^[k] s) := by
  induction k generalizing s with
  | zero => rw [whileLoop]; simp_all
  | succ k ih =>
    rw [whileLoop]
    have h0 := hlt 0 (Nat.succ_pos k)
    simp only [Function.iterate_zero, id_eq] at h0
    rw [if_pos h0, Function.iterate_succ_apply]
    apply ih
    · intro j hj
      rw [← Function.iterate_succ_apply]; exact hlt (j + 1) (by omega)
    · rw [← Function.iterate_succ_apply]; exact hk

/-- `whileLoop` computes exactly the big-step relation. -/
theorem whileLoop_eq_some_iff (cond : σ → Bool) (body : σ → σ) (s s' : σ) :
    whileLoop cond body s = some s' ↔ WhileEval cond body s s' := by
  constructor
  · intro h
    refine whileLoop.partial_correctness cond body (fun s s' => WhileEval cond body s s') ?_ s s' h
    intro w ih s s' hs
    by_cases hc : cond s = true
    · rw [if_pos hc] at hs
      exact WhileEval.step hc (ih _ _ hs)
    · rw [if_neg hc] at hs
      obtain rfl := Option.some.inj hs
      exact WhileEval.stop (by simpa using hc)
  · intro h
    induction h with
    | stop h => rw [whileLoop, if_neg (by simp [h])]
    | step h _ ih => rw [whileLoop, if_pos h]; exact ih

/-- A terminating run is a finite iteration of the body. -/
theorem WhileEval.exists_iterate {cond : σ → Bool} {body : σ → σ} {s s' : σ}
    (h : WhileEval cond body s s') :
    ∃ k, s' = body^[k] s ∧ cond s' = false ∧ ∀ j < k, cond (body^[j] s) = true := by
  induction h with
  | stop h => exact ⟨0, rfl, h, by simp⟩
  | @step s s' h _ ih =>
    obtain ⟨k, hk, hs, hj⟩ := ih
    refine ⟨k + 1, by rw [Function.iterate_succ_apply]; exact hk, hs, ?_⟩
    rintro (_ | j) hjk
    · exact h
    · rw [Function.iterate_succ_apply]; exact hj j (by omega)

theorem whileLoop_eq_none_iff (cond : σ → Bool) (body : σ → σ) (s : σ) :
    whileLoop cond body s = none ↔ ∀ k, cond (body^[k] s) = true := by
  constructor
  · intro h k
    by_contra hc
    have hex : ∃ k, cond (body^[k] s) = false := ⟨k, by simpa using hc⟩
    classical
    have := whileLoop_of_iterate cond body (Nat.find hex) s
      (fun j hj => by simpa using Nat.find_min hex hj) (Nat.find_spec hex)
    rw [h] at this; cases this
  · intro h
    rw [Option.eq_none_iff_forall_ne_some]
    intro s' hs
    obtain ⟨k, hk, hf, -⟩ := ((whileLoop_eq_some_iff _ _ _ _).1 hs).exists_iterate
    rw [hk, h k] at hf; cases hf

/-- The value before the `j`-th iterate in a loop remembering one previous value. -/
def prevOf {α : Type} (N : α → α) (x0 y0 : α) : ℕ → α
  | 0 => y0
  | j + 1 => N^[j] x0

theorem newtonCarry_iterate {α : Type} (N : α → α) (x0 y0 : α) (k : ℕ) :
    (fun c : ℕ × α × α => (c.1 + 1, N c.2.1, c.2.1))^[k] (0, x0, y0)
      = (k, N^[k] x0, prevOf N x0 y0 k) := by
  induction k with
  | zero => rfl
  | succ k ih =>
    rw [Function.iterate_succ_apply', ih]
    simp only [Function.iterate_succ_apply', prevOf]

/-- The history of a counted Newton loop: it stops, at the first of `max_iter` iterates passing the
test, or at the last. -/
theorem newton_loop {α : Type} (N : α → α) (test : α → α → Bool) (max_iter : ℕ) (x0 y0 : α) :
    ∃ k ≤ max_iter,
      whileLoop (fun c : ℕ × α × α => test c.2.1 c.2.2 && decide (c.1 < max_iter))
        (fun c => (c.1 + 1, N c.2.1, c.2.1)) (0, x0, y0)
        = some (k, N^[k] x0, prevOf N x0 y0 k) ∧
      (∀ j < k, test (N^[j] x0) (prevOf N x0 y0 j) = true) ∧
      (k < max_iter → test (N^[k] x0) (prevOf N x0 y0 k) = false) := by
  classical
  have hex : ∃ k, (test (N^[k] x0) (prevOf N x0 y0 k) && decide (k < max_iter)) = false :=
    ⟨max_iter, by simp⟩
  refine ⟨Nat.find hex, Nat.find_min' hex (by simp), ?_, ?_, ?_⟩
  · have := whileLoop_of_iterate
      (fun c : ℕ × α × α => test c.2.1 c.2.2 && decide (c.1 < max_iter))
      (fun c => (c.1 + 1, N c.2.1, c.2.1)) (Nat.find hex) (0, x0, y0)
      (fun j hj => by
        have := Nat.find_min hex hj
        rw [newtonCarry_iterate]; simpa using this)
      (by rw [newtonCarry_iterate]; exact Nat.find_spec hex)
    rw [this, newtonCarry_iterate]
  · intro j hj
    have := Nat.find_min hex hj
    simp only [Bool.not_eq_false, Bool.and_eq_true] at this
    exact this.1
  · intro hk
    have := Nat.find_spec hex
    rwa [decide_eq_true hk, Bool.and_true] at this

/-! ### Batching -/

theorem batchWhileLoop_nil (cond : σ → Bool) (body : σ → σ) :
    batchWhileLoop cond body [] = some [] := by rw [batchWhileLoop]; simp

/-- One lane, frozen once its condition is false. -/
def laneStep (cond : σ → Bool) (body : σ → σ) (s : σ) : σ := if cond s then body s else s

theorem whileLoop_laneStep (cond : σ → Bool) (body : σ → σ) (s : σ) :
    whileLoop cond body (laneStep cond body s) = whileLoop cond body s := by
  unfold laneStep
  split_ifs with h
  · conv_rhs => rw [whileLoop, if_pos h]
  · rfl

theorem mapM_whileLoop_laneStep (cond : σ → Bool) (body : σ → σ) (ss : List σ) :
    (ss.map (laneStep cond body)).mapM (whileLoop cond body) = ss.mapM (whileLoop cond body) := by
  induction ss with
  | nil => rfl
  | cons s ss ih => simp only [List.map_cons, List.mapM_cons, whileLoop_laneStep, ih]

theorem batch_sound (cond : σ → Bool) (body : σ → σ) (ss out : List σ)
    (h : batchWhileLoop cond body ss = some out) : ss.mapM (whileLoop cond body) = some out := by
  refine batchWhileLoop.partial_correctness cond body
    (fun ss out => ss.mapM (whileLoop cond body) = some out) ?_ ss out h
  intro w ih ss out hs
  by_cases hc : ss.any cond = true
  · rw [if_pos hc] at hs
    have := ih _ _ hs
    rw [← mapM_whileLoop_laneStep]
    exact this
  · rw [if_neg hc] at hs
    obtain rfl := Option.some.inj hs
    simp only [List.any_eq_true, not_exists, not_and, Bool.not_eq_true] at hc
    clear ih h
    induction ss with
    | nil => rfl
    | cons s ss ih =>
      have h1 : whileLoop cond body s = some s := by
        rw [whileLoop, if_neg (by simp [hc s (by simp)])]
      rw [List.mapM_cons, h1, ih (by simp) (fun x hx => hc x (by simp [hx]))]
      rfl

/-- Number of body applications each lane needs; if all lanes stop, so does the batch. -/
theorem batch_complete (cond : σ → Bool) (body : σ → σ) (n : ℕ) (ss : List σ)
    (h : ∀ s ∈ ss, ∃ k ≤ n, cond (body^[k] s) = false) :
    ∃ out, batchWhileLoop cond body ss = some out := by
  induction n generalizing ss with
  | zero =>
    refine ⟨ss, ?_⟩
    rw [batchWhileLoop, if_neg]
    simp only [List.any_eq_true, not_exists, not_and, Bool.not_eq_true]
    intro s hs
    obtain ⟨k, hk, hc⟩ := h s hs
    obtain rfl : k = 0 := by omega
    exact hc
  | succ n ih =>
    by_cases hc : ss.any cond = true
    · rw [batchWhileLoop, if_pos hc]
      apply ih
      intro s' hs'
      obtain ⟨s, hs, rfl⟩ := List.mem_map.1 hs'
      obtain ⟨k, hk, hck⟩ := h s hs
      by_cases hcs : cond s = true
      · simp only [hcs, if_true]
        rcases k with _ | k
        · simp only [Function.iterate_zero, id_eq] at hck; rw [hcs] at hck; cases hck
        · exact ⟨k, by omega, by rw [Function.iterate_succ_apply] at hck; exact hck⟩
      · simp only [hcs]
        exact ⟨0, by omega, by simpa using hcs⟩
    · exact ⟨ss, by rw [batchWhileLoop, if_neg hc]⟩

/-- The batched loop is the lane-by-lane loop, including non-termination: if one lane never stops the
batch never stops. -/
theorem batchWhileLoop_eq_mapM (cond : σ → Bool) (body : σ → σ) (ss : List σ) :
    batchWhileLoop cond body ss = ss.mapM (whileLoop cond body) := by
  cases hb : batchWhileLoop cond body ss with
  | some out => exact (batch_sound cond body ss out hb).symm
  | none =>
    cases hm : ss.mapM (whileLoop cond body) with
    | none => rfl
    | some out =>
      exfalso
      have hall : ∀ s ∈ ss, ∃ k, cond (body^[k] s) = false := by
        intro s hs
        by_contra hc
        push Not at hc
        have hn := (whileLoop_eq_none_iff cond body s).2 (fun k => by simpa using hc k)
        clear hb hc
        induction ss generalizing out with
        | nil => cases hs
        | cons a ss ih =>
          rw [List.mapM_cons] at hm
          rcases List.mem_cons.1 hs with rfl | hs
          · rw [hn] at hm; cases hm
          · cases ha : whileLoop cond body a with
            | none => rw [ha] at hm; cases hm
            | some a' =>
              cases hm' : ss.mapM (whileLoop cond body) with
              | none => rw [ha, hm'] at hm; cases hm
              | some out' => exact ih _ hm' hs
      have hbound : ∃ n, ∀ s ∈ ss, ∃ k ≤ n, cond (body^[k] s) = false := by
        clear hb hm
        induction ss with
        | nil => exact ⟨0, by simp⟩
        | cons a ss ih =>
          obtain ⟨n, hn⟩ := ih (fun s hs => hall s (by simp [hs]))
          obtain ⟨k, hk⟩ := hall a (by simp)
          refine ⟨max n k, fun s hs => ?_⟩
          rcases List.mem_cons.1 hs with rfl | hs
          · exact ⟨k, Nat.le_max_right _ _, hk⟩
          · obtain ⟨j, hj, hc⟩ := hn s hs
            exact ⟨j, Nat.le_trans hj (Nat.le_max_left _ _), hc⟩
      obtain ⟨n, hn⟩ := hbound
      obtain ⟨out', ho⟩ := batch_complete cond body n ss hn
      rw [hb] at ho; cases ho

/-- Simulation: related starts give related results. -/
theorem whileLoop_simulate {σ τ : Type} {c1 : σ → Bool} {b1 : σ → σ} {c2 : τ → Bool} {b2 : τ → τ}
    (R : σ → τ → Prop) (hc : ∀ s t, R s t → c1 s = c2 t) (hb : ∀ s t, R s t → R (b1 s) (b2 t))
    {s : σ} {t : τ} (h : R s t) {s' : σ} (hs : whileLoop c1 b1 s = some s') :
    ∃ t', whileLoop c2 b2 t = some t' ∧ R s' t' := by
  rw [whileLoop_eq_some_iff] at hs
  induction hs generalizing t with
  | stop hst => exact ⟨t, by rw [whileLoop, if_neg (by simp [← hc _ _ h, hst])], h⟩
  | step hst _ ih =>
    obtain ⟨t', h1, h2⟩ := ih (hb _ _ h)
    exact ⟨t', by rw [whileLoop, if_pos (by rw [← hc _ _ h, hst])]; exact h1, h2⟩

end Adx
