import Verif.Spec.Grad
import Verif.Lemmas.Dual
import Verif.Lemmas.Param

/-! # Reverse mode is the transpose of forward mode -/

namespace Adx
open Spec
variable {ι : Type} [Fintype ι]

/-- The pullback `b` and the tangent `g` in direction `w` are transposes of each other. -/
def RDadj (w : ι → ℝ) : Option (ℝ → ι → ℝ) → Option ℝ → Prop
  | some b, some g => ∀ ct, ∑ i, b ct i * w i = ct * g
  | none, none => True
  | _, _ => False

/-- Same value, and transposed derivative in direction `w`. -/
def RD (w : ι → ℝ) (r : Rev ι ℝ) (d : Dual ℝ) : Prop := r.val = d.val ∧ RDadj w r.adj d.tan

theorem RDadj.add {w : ι → ℝ} {a b : Option (ℝ → ι → ℝ)} {c d : Option ℝ} (h1 : RDadj w a c) (h2 : RDadj w b d) :
    RDadj w (Rev.addAdj a b) (Dual.addTan c d) := by
  cases a <;> cases b <;> cases c <;> cases d <;> simp_all [RDadj, Rev.addAdj, Dual.addTan, add_mul, Finset.sum_add_distrib, mul_add]

theorem RDadj.map {w : ι → ℝ} {r : Rev ι ℝ} {d : Dual ℝ} (h : RD w r d) {f g : ℝ → ℝ}
    (hfg : ∀ ct t, f ct * t = ct * g t) : RDadj w (r.pre f) (d.tan.map g) := by
  obtain ⟨-, h⟩ := h
  unfold Rev.pre
  revert h
  cases r.adj <;> cases d.tan <;> intro h <;> simp_all [RDadj]

theorem RD.compat (w : ι → ℝ) : Compat (RD w) where
  add h1 h2 := ⟨congrArg₂ (· + ·) h1.1 h2.1, h1.2.add h2.2⟩
  sub h1 h2 := ⟨congrArg₂ (· - ·) h1.1 h2.1, h1.2.add (RDadj.map h2 fun _ _ => by ring)⟩
  mul h1 h2 := ⟨congrArg₂ (· * ·) h1.1 h2.1, (RDadj.map h1 fun _ _ => by rw [h2.1]; ring).add
    (RDadj.map h2 fun _ _ => by rw [h1.1]; ring)⟩
  div h1 h2 := ⟨congrArg₂ (· / ·) h1.1 h2.1, (RDadj.map h1 fun _ _ => by rw [h2.1]; ring).add
    (RDadj.map h2 fun _ _ => by rw [h1.1, h2.1]; ring)⟩
  neg h := ⟨congrArg (- ·) h.1, RDadj.map h fun _ _ => by ring⟩
  pow n h := ⟨congrArg (· ^ n) h.1, RDadj.map h fun _ _ => by
    rw [h.1]; split_ifs
    · simp
    · ring⟩
  cast _ := ⟨rfl, trivial⟩
  pi := ⟨rfl, trivial⟩
  sqrt h := ⟨congrArg JFun.sqrt h.1, RDadj.map h fun _ _ => by rw [h.1]; ring⟩
  cbrt h := ⟨congrArg JFun.cbrt h.1, RDadj.map h fun _ _ => by rw [h.1]; ring⟩
  sin h := ⟨congrArg JFun.sin h.1, RDadj.map h fun _ _ => by rw [h.1]; ring⟩
  cos h := ⟨congrArg JFun.cos h.1, RDadj.map h fun _ _ => by rw [h.1]; ring⟩
  sinh h := ⟨congrArg JFun.sinh h.1, RDadj.map h fun _ _ => by rw [h.1]; ring⟩
  cosh h := ⟨congrArg JFun.cosh h.1, RDadj.map h fun _ _ => by rw [h.1]; ring⟩
  log h := ⟨congrArg JFun.log h.1, RDadj.map h fun _ _ => by rw [h.1]; ring⟩
  arccos h := ⟨congrArg JFun.arccos h.1, RDadj.map h fun _ _ => by rw [h.1]; ring⟩
  arctan2 h1 h2 := ⟨congrArg₂ JFun.arctan2 h1.1 h2.1, (RDadj.map h1 fun _ _ => by rw [h1.1, h2.1]; ring).add
    (RDadj.map h2 fun _ _ => by rw [h1.1, h2.1]; ring)⟩
  abs h := ⟨congrArg JFun.abs h.1, RDadj.map h fun _ _ => by rw [h.1]; ring⟩
  maximum h1 h2 := ⟨congrArg₂ JFun.maximum h1.1 h2.1, (RDadj.map h1 fun _ _ => by rw [h1.1, h2.1]; ring).add
    (RDadj.map h2 fun _ _ => by rw [h1.1, h2.1]; ring)⟩
  floor h := ⟨congrArg JFun.floor h.1, trivial⟩
  onesLike h := ⟨congrArg JFun.onesLike h.1, trivial⟩
  item h := ⟨congrArg JFun.item h.1, trivial⟩
  lt h1 h2 := congrArg₂ JFun.lt h1.1 h2.1

/-- The traced value of forward mode in direction `w`. -/
def fwd (w : ι → ℝ) (r : Rev ι ℝ) : Dual ℝ := ⟨r.val, r.adj.map fun b => ∑ i, b 1 i * w i⟩

/-- The same for vectors. -/
def fwdV (w : ι → ℝ) (r : V3 (Rev ι ℝ)) : V3 (Dual ℝ) := ⟨fwd w r.x, fwd w r.y, fwd w r.z⟩

namespace Spec

omit [Fintype ι] in
@[simp] theorem line_zero (x w : ι → ℝ) : line x w 0 = x := by funext i; simp [line]

namespace IsGrad
variable {F : (ι → ℝ) → ℝ} {x : ι → ℝ} {r : Rev ι ℝ}

theorem rd (h : IsGrad F x r) (w : ι → ℝ) : RD w r (fwd w r) := by
  refine ⟨rfl, ?_⟩
  have := h.pull
  unfold pullback Rev.grad at this
  unfold fwd
  revert this
  cases r.adj with
  | none => intro; trivial
  | some b =>
    intro this ct
    simp only [Finset.mul_sum]
    refine Finset.sum_congr rfl fun i _ => ?_
    have := this ct i
    simp only [Nat.cast_one] at this
    rw [this]; ring

theorem tracks (h : IsGrad F x r) (w : ι → ℝ) : Tracks (fun s => F (line x w s)) 0 (fwd w r) := by
  refine ⟨h.val.trans (by simp), ?_⟩
  have := h.deriv w
  have e : Dual.dot (fwd w r) = ∑ i, r.grad i * w i := by
    unfold Dual.dot fwd Rev.grad
    cases r.adj <;> simp
  rwa [e]

theorem of_fwd {d : (ι → ℝ) → Dual ℝ} (h1 : ∀ w, RD w r (d w)) (h2 : ∀ w, Tracks (fun s => F (line x w s)) 0 (d w)) :
    IsGrad F x r := by
  classical
  refine ⟨by rw [(h1 0).1, (h2 0).val, line_zero], fun ct i => ?_, fun w => ?_⟩
  · have h := (h1 (Pi.single i 1)).2
    unfold pullback Rev.grad
    revert h
    cases r.adj with
    | none => simp
    | some b =>
      cases (d (Pi.single i 1)).tan with
      | none => exact fun h => h.elim
      | some g =>
        intro h
        have e1 := h ct
        have e2 := h 1
        simp [Pi.single_apply] at e1 e2
        simp [e1, e2]
  · refine (h2 w).deriv.congr_deriv ?_
    have h := (h1 w).2
    unfold Dual.dot Rev.grad
    revert h
    cases r.adj with
    | none => cases (d w).tan <;> simp [RDadj]
    | some b =>
      cases (d w).tan with
      | none => exact fun h => h.elim
      | some g =>
        intro h
        have := h 1
        simp_all

end IsGrad

namespace IsGradV
variable {F : (ι → ℝ) → V3 ℝ} {x : ι → ℝ} {r : V3 (Rev ι ℝ)}

theorem rd (h : IsGradV F x r) (w : ι → ℝ) : RelV (RD w) r (fwdV w r) := ⟨h.x.rd w, h.y.rd w, h.z.rd w⟩

theorem tracks (h : IsGradV F x r) (w : ι → ℝ) : TracksV (fun s => F (line x w s)) 0 (fwdV w r) :=
  ⟨h.x.tracks w, h.y.tracks w, h.z.tracks w⟩

theorem of_fwd {d : (ι → ℝ) → V3 (Dual ℝ)} (h1 : ∀ w, RelV (RD w) r (d w))
    (h2 : ∀ w, TracksV (fun s => F (line x w s)) 0 (d w)) : IsGradV F x r :=
  ⟨.of_fwd (fun w => (h1 w).x) fun w => (h2 w).x, .of_fwd (fun w => (h1 w).y) fun w => (h2 w).y,
    .of_fwd (fun w => (h1 w).z) fun w => (h2 w).z⟩

end IsGradV

end Spec
end Adx
