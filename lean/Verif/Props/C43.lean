import Verif.Model.Gravity
import Verif.Lemmas.RealVec

/-! # C43, C44: parameter lookup and the radius event -/

set_option linter.unusedSectionVars false

namespace Adx
open V3

section anyArith
variable {α : Type} [Add α] [Sub α] [Neg α] [Mul α] [Div α] [Pow α ℕ] [NatCast α] [JFun α]

/-- Specification of "raises `KeyError` for the first missing key of `keys`, in order; otherwise
returns normally". -/
def FirstMissing (args : Args α) (keys : List String) {β : Type} (res : Except PyErr β) : Prop :=
  match keys.find? (fun k => (args k).isNone) with
  | some k => res = .error (.keyError k)
  | none => ∃ a, res = .ok a

theorem get_some {args : Args α} {k : String} {a : α} (h : args k = some a) : args.get k = .ok a := by
  simp [Args.get, h]
theorem get_none {args : Args α} {k : String} (h : args k = none) :
    args.get k = .error (.keyError k) := by simp [Args.get, h]

/-- C43: which exception is raised, for every mapping, in any arithmetic. -/
theorem C43_key_errors (t : α) (x : State α) (args : Args α) :
    FirstMissing args ["mu"] (point_mass_grav t x args) ∧
    FirstMissing args ["mu", "J2", "R_eq"] (j2_acc t x args) ∧
    FirstMissing args ["mu", "J3", "R_eq"] (j3_acc t x args) ∧
    FirstMissing args ["mu", "J4", "R_eq"] (j4_acc t x args) ∧
    FirstMissing args ["rmin"] (radius_islow t x args) := by
  refine ⟨?_, ?_, ?_, ?_, ?_⟩
  · rcases hm : args "mu" with _ | mu <;>
      simp [FirstMissing, point_mass_grav, hm, Args.get, bind, Except.bind, pure, Except.pure]
  · rcases hm : args "mu" with _ | mu <;> rcases hj : args "J2" with _ | J <;>
      rcases hR : args "R_eq" with _ | R <;>
      simp [FirstMissing, j2_acc, hm, hj, hR, Args.get, bind, Except.bind, pure, Except.pure]
  · rcases hm : args "mu" with _ | mu <;> rcases hj : args "J3" with _ | J <;>
      rcases hR : args "R_eq" with _ | R <;>
      simp [FirstMissing, j3_acc, hm, hj, hR, Args.get, bind, Except.bind, pure, Except.pure]
  · rcases hm : args "mu" with _ | mu <;> rcases hj : args "J4" with _ | J <;>
      rcases hR : args "R_eq" with _ | R <;>
      simp [FirstMissing, j4_acc, hm, hj, hR, Args.get, bind, Except.bind, pure, Except.pure]
  · rcases hm : args "rmin" with _ | mu <;>
      simp [FirstMissing, radius_islow, hm, Args.get, bind, Except.bind, pure, Except.pure]

/-- C43: the result depends only on the named keys: two mappings that agree on them give the same
result, whatever else they contain; nor do time or the entries after the position matter. -/
theorem C43_only_named_keys (t t' : α) (x x' : State α) (args args' : Args α) (hx : x.pos = x'.pos) :
    (args "mu" = args' "mu" → point_mass_grav t x args = point_mass_grav t' x' args') ∧
    (args "mu" = args' "mu" → args "J2" = args' "J2" → args "R_eq" = args' "R_eq" →
      j2_acc t x args = j2_acc t' x' args') ∧
    (args "mu" = args' "mu" → args "J3" = args' "J3" → args "R_eq" = args' "R_eq" →
      j3_acc t x args = j3_acc t' x' args') ∧
    (args "mu" = args' "mu" → args "J4" = args' "J4" → args "R_eq" = args' "R_eq" →
      j4_acc t x args = j4_acc t' x' args') ∧
    (args "rmin" = args' "rmin" → radius_islow t x args = radius_islow t' x' args') := by
  refine ⟨?_, ?_, ?_, ?_, ?_⟩
  · intro h1; simp only [point_mass_grav, Args.get, h1, hx]
  · intro h1 h2 h3; simp only [j2_acc, Args.get, h1, h2, h3, hx]
  · intro h1 h2 h3; simp only [j3_acc, Args.get, h1, h2, h3, hx]
  · intro h1 h2 h3; simp only [j4_acc, Args.get, h1, h2, h3, hx]
  · intro h1; simp only [radius_islow, Args.get, h1, hx]

/-- Non-vacuity: `{"mu": 1, "R_eq": 1}` makes `j2_acc` raise `KeyError: 'J2'`. -/
example (t : α) (x : State α) (one : α) :
    j2_acc t x (fun k => if k = "mu" then some one else if k = "R_eq" then some one else none)
      = .error (.keyError "J2") := by
  simp [j2_acc, Args.get, bind, Except.bind]

end anyArith

/-- C44: `radius_islow` is below, on, or above zero exactly as the distance is below, on, or above
`rmin`; its value is the height above the sphere. -/
theorem C44_radius_islow (t : ℝ) (x : State ℝ) (args : Args ℝ) (rmin : ℝ)
    (h : args "rmin" = some rmin) :
    ∃ g, radius_islow t x args = .ok g ∧
      (g < 0 ↔ Real.sqrt (x.pos.x ^ 2 + x.pos.y ^ 2 + x.pos.z ^ 2) < rmin) ∧
      (g = 0 ↔ Real.sqrt (x.pos.x ^ 2 + x.pos.y ^ 2 + x.pos.z ^ 2) = rmin) ∧
      (0 < g ↔ rmin < Real.sqrt (x.pos.x ^ 2 + x.pos.y ^ 2 + x.pos.z ^ 2)) := by
  refine ⟨V3.norm x.pos - rmin, by simp [radius_islow, Args.get, h, bind, Except.bind, pure, Except.pure], ?_⟩
  have : V3.norm x.pos = Real.sqrt (x.pos.x ^ 2 + x.pos.y ^ 2 + x.pos.z ^ 2) := by
    simp only [V3.norm, dot, sqrt_real, sq]
  rw [this]
  exact ⟨sub_neg, sub_eq_zero, sub_pos⟩

/-- C44: a small change of the position changes the event value by at most the distance moved, so
between two steps it cannot jump over zero without the radius doing so. -/
theorem C44_lipschitz (t : ℝ) (x y : State ℝ) (args : Args ℝ) (gx gy : ℝ)
    (hx : radius_islow t x args = .ok gx) (hy : radius_islow t y args = .ok gy) :
    |gx - gy| ≤ V3.norm (x.pos - y.pos) := by
  rcases hm : args "rmin" with _ | rmin
  · simp [radius_islow, Args.get, hm, bind, Except.bind] at hx
  · simp only [radius_islow, Args.get, hm, bind, Except.bind, pure, Except.pure, Except.ok.injEq] at hx hy
    rw [← hx, ← hy, sub_sub_sub_cancel_right]
    apply abs_le_of_sq_le_sq _ (norm_nonneg _)
    have h1 := norm_sq x.pos
    have h2 := norm_sq y.pos
    have h3 := (abs_le.1 (abs_dot_le x.pos y.pos)).2
    have h4 : V3.norm (x.pos - y.pos) ^ 2 = dot x.pos x.pos - 2 * dot x.pos y.pos + dot y.pos y.pos := by
      rw [norm_sq]; simp only [dot, sub_x, sub_y, sub_z]; ring
    rw [h4]; nlinarith

end Adx
