import Verif.XR
import Verif.Lemmas.DualXR
import Verif.Lemmas.Rev

/-! # Reverse mode with the IEEE special values

`RFin x y`: the traced value `x` over the IEEE values is finite and pulls every finite cotangent back to finite cotangents,
those of `y` over the reals. On the smooth domain of an operation finite operands give a finite result.
`Bad S i x`: every cotangent in `S` is pulled back to NaN at input `i`. -/

namespace Adx
open XR (fin pinf ninf nan)
variable {ι : Type}

/-- The pullback `b` takes finite cotangents to the finite cotangents of `c`. -/
def AdjFin : Option (XR → ι → XR) → Option (ℝ → ι → ℝ) → Prop
  | some b, some c => ∀ ct i, b (fin ct) i = fin (c ct i)
  | none, none => True
  | _, _ => False

/-- A finite traced value with a finite pullback. -/
def RFin (x : Rev ι XR) (y : Rev ι ℝ) : Prop := x.val = fin y.val ∧ AdjFin x.adj y.adj

theorem AdjFin.add {a b : Option (XR → ι → XR)} {c d : Option (ℝ → ι → ℝ)} (h1 : AdjFin a c) (h2 : AdjFin b d) :
    AdjFin (Rev.addAdj a b) (Rev.addAdj c d) := by
  cases a <;> cases b <;> cases c <;> cases d <;> simp_all [AdjFin, Rev.addAdj]

theorem AdjFin.pre {x : Rev ι XR} {y : Rev ι ℝ} (h : RFin x y) {f : XR → XR} {g : ℝ → ℝ}
    (hfg : ∀ ct, f (fin ct) = fin (g ct)) : AdjFin (x.pre f) (y.pre g) := by
  obtain ⟨-, h⟩ := h
  unfold Rev.pre
  revert h
  cases x.adj <;> cases y.adj <;> intro h <;> simp_all [AdjFin]

namespace RFin
variable {a b : Rev ι XR} {c d : Rev ι ℝ}

/-- `jax.grad` of a finite traced value is finite. -/
theorem grad (h : RFin a c) (i : ι) : a.grad i = fin (c.grad i) := by
  obtain ⟨-, h⟩ := h
  revert h
  unfold Rev.grad
  cases a.adj <;> cases c.adj <;> intro h <;> simp_all [AdjFin]

theorem nat (n : ℕ) : RFin ((n : ℕ) : Rev ι XR) ((n : ℕ) : Rev ι ℝ) := ⟨rfl, trivial⟩
theorem pi : RFin (JFun.pi : Rev ι XR) JFun.pi := ⟨rfl, trivial⟩
theorem add (h1 : RFin a c) (h2 : RFin b d) : RFin (a + b) (c + d) :=
  ⟨by show a.val + b.val = _; rw [h1.1, h2.1]; rfl, h1.2.add h2.2⟩
theorem neg (h1 : RFin a c) : RFin (-a) (-c) :=
  ⟨by show -a.val = _; rw [h1.1]; rfl, AdjFin.pre h1 fun _ => rfl⟩
theorem sub (h1 : RFin a c) (h2 : RFin b d) : RFin (a - b) (c - d) :=
  ⟨by show a.val - b.val = _; rw [h1.1, h2.1, XR.fin_sub]; rfl, h1.2.add (AdjFin.pre h2 fun _ => rfl)⟩
theorem mul (h1 : RFin a c) (h2 : RFin b d) : RFin (a * b) (c * d) :=
  ⟨by show a.val * b.val = _; rw [h1.1, h2.1]; rfl,
    (AdjFin.pre h1 fun _ => by rw [h2.1]; rfl).add (AdjFin.pre h2 fun _ => by rw [h1.1]; rfl)⟩
theorem div (h1 : RFin a c) (h2 : RFin b d) (h : d.val ≠ 0) : RFin (a / b) (c / d) := by
  have hp : d.val ^ 2 ≠ 0 := pow_ne_zero 2 h
  refine ⟨?_, (AdjFin.pre h1 fun ct => ?_).add (AdjFin.pre h2 fun ct => ?_)⟩
  · show a.val / b.val = _
    rw [h1.1, h2.1, XR.fin_div _ h]; rfl
  · rw [h2.1, XR.fin_div _ h]
  · rw [h1.1, h2.1, XR.cast_fin, XR.fin_pow, XR.fin_div _ hp]; rfl
theorem pow (n : ℕ) (h1 : RFin a c) : RFin (a ^ n) (c ^ n) := by
  refine ⟨?_, AdjFin.pre h1 fun ct => ?_⟩
  · show a.val ^ n = _
    rw [h1.1, XR.fin_pow]; rfl
  · split_ifs
    · rfl
    · rw [h1.1, XR.fin_pow]; rfl
theorem sqrt (h1 : RFin a c) (h : 0 < c.val) : RFin (JFun.sqrt a) (JFun.sqrt c) := by
  refine ⟨?_, AdjFin.pre h1 fun ct => ?_⟩
  · show JFun.sqrt a.val = _
    rw [h1.1, XR.sqrt_fin h.le]; rfl
  · rw [h1.1, XR.sqrt_fin h.le, XR.cast_fin, XR.cast_fin, XR.fin_div _ (by norm_num : ((2 : ℕ) : ℝ) ≠ 0),
      XR.fin_div _ (Real.sqrt_pos.2 h).ne']
    rfl
theorem cbrt (h1 : RFin a c) (h : 0 < c.val) : RFin (JFun.cbrt a) (JFun.cbrt c) := by
  have hc : realCbrt c.val ^ 2 ≠ 0 := pow_ne_zero 2 (by rw [realCbrt, if_pos h.le]; positivity)
  refine ⟨?_, AdjFin.pre h1 fun ct => ?_⟩
  · show JFun.cbrt a.val = _
    rw [h1.1]; rfl
  · rw [h1.1, XR.cast_fin, XR.cast_fin, XR.fin_div _ (by norm_num : ((3 : ℕ) : ℝ) ≠ 0),
      show JFun.cbrt (fin c.val) ^ 2 = fin (realCbrt c.val ^ 2) from XR.fin_pow _ 2, XR.fin_div _ hc]
    rfl
theorem sin (h1 : RFin a c) : RFin (JFun.sin a) (JFun.sin c) :=
  ⟨by show JFun.sin a.val = _; rw [h1.1]; rfl, AdjFin.pre h1 fun _ => by rw [h1.1]; rfl⟩
theorem cos (h1 : RFin a c) : RFin (JFun.cos a) (JFun.cos c) :=
  ⟨by show JFun.cos a.val = _; rw [h1.1]; rfl, AdjFin.pre h1 fun _ => by rw [h1.1]; rfl⟩
theorem sinh (h1 : RFin a c) : RFin (JFun.sinh a) (JFun.sinh c) :=
  ⟨by show JFun.sinh a.val = _; rw [h1.1]; rfl, AdjFin.pre h1 fun _ => by rw [h1.1]; rfl⟩
theorem cosh (h1 : RFin a c) : RFin (JFun.cosh a) (JFun.cosh c) :=
  ⟨by show JFun.cosh a.val = _; rw [h1.1]; rfl, AdjFin.pre h1 fun _ => by rw [h1.1]; rfl⟩
theorem arccos (h1 : RFin a c) (h : -1 < c.val) (h' : c.val < 1) : RFin (JFun.arccos a) (JFun.arccos c) := by
  have hp : 0 < 1 - c.val ^ 2 := by nlinarith
  have hs : JFun.sqrt (((1 : ℕ) : XR) - fin c.val ^ 2) = fin (Real.sqrt (1 - c.val ^ 2)) := by
    rw [XR.cast_fin, XR.fin_pow, XR.fin_sub, Nat.cast_one, XR.sqrt_fin hp.le]
  refine ⟨?_, AdjFin.pre h1 fun ct => ?_⟩
  · show JFun.arccos a.val = _
    rw [h1.1, XR.arccos_fin h.le h'.le]; rfl
  · rw [h1.1, hs, XR.cast_fin, XR.fin_div _ (Real.sqrt_pos.2 hp).ne', Nat.cast_one]
    rfl
theorem arctan2 (h1 : RFin a c) (h2 : RFin b d) (h : c.val ≠ 0 ∨ d.val ≠ 0) :
    RFin (JFun.arctan2 a b) (JFun.arctan2 c d) := by
  have hp : c.val ^ 2 + d.val ^ 2 ≠ 0 := by
    rcases h with h | h
    · have := sq_nonneg d.val; have := pow_pos (abs_pos.2 h) 2; rw [sq_abs] at this; linarith
    · have := sq_nonneg c.val; have := pow_pos (abs_pos.2 h) 2; rw [sq_abs] at this; linarith
  refine ⟨?_, (AdjFin.pre h1 fun ct => ?_).add (AdjFin.pre h2 fun ct => ?_)⟩
  · show JFun.arctan2 a.val b.val = _
    rw [h1.1, h2.1]; rfl
  · rw [h1.1, h2.1, XR.fin_pow, XR.fin_pow, XR.fin_add, XR.fin_div _ hp]; rfl
  · rw [h1.1, h2.1, XR.fin_pow, XR.fin_pow, XR.fin_add, XR.fin_div _ hp]; rfl
theorem maximum (h1 : RFin a c) (h2 : RFin b d) : RFin (JFun.maximum a b) (JFun.maximum c d) := by
  refine ⟨?_, (AdjFin.pre h1 fun ct => ?_).add (AdjFin.pre h2 fun ct => ?_)⟩
  · show JFun.maximum a.val b.val = _
    rw [h1.1, h2.1]; rfl
  · rw [h1.1, h2.1, XRDual.share_fin]; rfl
  · rw [h1.1, h2.1, XRDual.share_fin]; rfl
theorem floor (h1 : RFin a c) : RFin (JFun.floor a) (JFun.floor c) :=
  ⟨by show JFun.floor a.val = _; rw [h1.1]; rfl, trivial⟩
theorem onesLike : RFin (JFun.onesLike a) (JFun.onesLike c) := ⟨rfl, trivial⟩
theorem lt (h1 : RFin a c) (h2 : RFin b d) : JFun.lt a b = JFun.lt c d := by
  show JFun.lt a.val b.val = _
  rw [h1.1, h2.1]; rfl

end RFin

/-- Finite traced vectors. -/
abbrev RFinV (u : V3 (Rev ι XR)) (w : V3 (Rev ι ℝ)) : Prop := RelV RFin u w
/-- Finite traced matrices. -/
abbrev RFinM (u : M3 (Rev ι XR)) (w : M3 (Rev ι ℝ)) : Prop := RelM RFin u w

namespace RFinV
variable {a : Rev ι XR} {c : Rev ι ℝ} {u u' : V3 (Rev ι XR)} {w w' : V3 (Rev ι ℝ)}
theorem add (h : RFinV u w) (h' : RFinV u' w') : RFinV (u + u') (w + w') := ⟨h.x.add h'.x, h.y.add h'.y, h.z.add h'.z⟩
theorem sub (h : RFinV u w) (h' : RFinV u' w') : RFinV (u - u') (w - w') := ⟨h.x.sub h'.x, h.y.sub h'.y, h.z.sub h'.z⟩
theorem neg (h : RFinV u w) : RFinV (-u) (-w) := ⟨h.x.neg, h.y.neg, h.z.neg⟩
theorem smul (ha : RFin a c) (h : RFinV u w) : RFinV (a • u) (c • w) := ⟨ha.mul h.x, ha.mul h.y, ha.mul h.z⟩
theorem div (h : RFinV u w) (ha : RFin a c) (h0 : c.val ≠ 0) : RFinV (u / a) (w / c) :=
  ⟨h.x.div ha h0, h.y.div ha h0, h.z.div ha h0⟩
theorem dot (h : RFinV u w) (h' : RFinV u' w') : RFin (V3.dot u u') (V3.dot w w') :=
  ((h.x.mul h'.x).add (h.y.mul h'.y)).add (h.z.mul h'.z)
theorem cross (h : RFinV u w) (h' : RFinV u' w') : RFinV (V3.cross u u') (V3.cross w w') :=
  ⟨(h.y.mul h'.z).sub (h.z.mul h'.y), (h.z.mul h'.x).sub (h.x.mul h'.z), (h.x.mul h'.y).sub (h.y.mul h'.x)⟩
end RFinV

namespace RFinM
variable {a : Rev ι XR} {c : Rev ι ℝ} {u u' : V3 (Rev ι XR)} {w w' : V3 (Rev ι ℝ)} {m m' : M3 (Rev ι XR)} {n n' : M3 (Rev ι ℝ)}
theorem add (h : RFinM m n) (h' : RFinM m' n') : RFinM (m + m') (n + n') :=
  ⟨RFinV.add h.r0 h'.r0, RFinV.add h.r1 h'.r1, RFinV.add h.r2 h'.r2⟩
theorem sub (h : RFinM m n) (h' : RFinM m' n') : RFinM (m - m') (n - n') :=
  ⟨RFinV.sub h.r0 h'.r0, RFinV.sub h.r1 h'.r1, RFinV.sub h.r2 h'.r2⟩
theorem neg (h : RFinM m n) : RFinM (-m) (-n) := ⟨RFinV.neg h.r0, RFinV.neg h.r1, RFinV.neg h.r2⟩
theorem smul (ha : RFin a c) (h : RFinM m n) : RFinM (a • m) (c • n) :=
  ⟨RFinV.smul ha h.r0, RFinV.smul ha h.r1, RFinV.smul ha h.r2⟩
theorem div (h : RFinM m n) (ha : RFin a c) (h0 : c.val ≠ 0) : RFinM (m / a) (n / c) :=
  ⟨RFinV.div h.r0 ha h0, RFinV.div h.r1 ha h0, RFinV.div h.r2 ha h0⟩
theorem outer (h : RFinV u w) (h' : RFinV u' w') : RFinM (M3.outer u u') (M3.outer w w') :=
  ⟨RFinV.smul h.x h', RFinV.smul h.y h', RFinV.smul h.z h'⟩
theorem eye : RFinM (M3.eye : M3 (Rev ι XR)) M3.eye :=
  ⟨⟨RFin.nat _, RFin.nat _, RFin.nat _⟩, ⟨RFin.nat _, RFin.nat _, RFin.nat _⟩, ⟨RFin.nat _, RFin.nat _, RFin.nat _⟩⟩
theorem mulVec (h : RFinM m n) (h' : RFinV u w) : RFinV (M3.mulVec m u) (M3.mulVec n w) :=
  ⟨RFinV.dot h.r0 h', RFinV.dot h.r1 h', RFinV.dot h.r2 h'⟩
theorem transpose (h : RFinM m n) : RFinM m.transpose n.transpose :=
  ⟨⟨h.r0.x, h.r1.x, h.r2.x⟩, ⟨h.r0.y, h.r1.y, h.r2.y⟩, ⟨h.r0.z, h.r1.z, h.r2.z⟩⟩
theorem mul (h : RFinM m n) (h' : RFinM m' n') : RFinM (M3.mul m m') (M3.mul n n') := by
  have t := transpose h'
  exact ⟨⟨RFinV.dot h.r0 t.r0, RFinV.dot h.r0 t.r1, RFinV.dot h.r0 t.r2⟩,
    ⟨RFinV.dot h.r1 t.r0, RFinV.dot h.r1 t.r1, RFinV.dot h.r1 t.r2⟩,
    ⟨RFinV.dot h.r2 t.r0, RFinV.dot h.r2 t.r1, RFinV.dot h.r2 t.r2⟩⟩
end RFinM

/-- Prove a `RFin` goal by the rules above; side conditions from the context. -/
macro "rfin" : tactic => `(tactic| (repeat' with_reducible (first
  | assumption | apply RFin.nat | exact RFin.pi | apply RFin.add | apply RFin.sub | apply RFin.mul | apply RFin.neg | apply RFin.pow
  | apply RFin.div | apply RFin.sqrt | apply RFin.cbrt | apply RFin.sin | apply RFin.cos | apply RFin.sinh | apply RFin.cosh
  | apply RFin.maximum | apply RFin.floor | apply RFin.onesLike
  | apply RFinV.dot | apply RFinV.add | apply RFinV.sub | apply RFinV.neg | apply RFinV.smul | apply RFinV.div | apply RFinV.cross
  | apply RFinM.add | apply RFinM.sub | apply RFinM.neg | apply RFinM.smul | apply RFinM.div | apply RFinM.outer | exact RFinM.eye
  | apply RFinM.mul | apply RFinM.mulVec)))

/-! ### NaN -/

/-- The pullback takes every cotangent in `S` to NaN at input `i`. -/
def BadAdj (S : Set XR) (i : ι) (o : Option (XR → ι → XR)) : Prop := ∃ b, o = some b ∧ ∀ ct ∈ S, b ct i = nan

/-- Every cotangent in `S` is pulled back to NaN at input `i`. -/
def Bad (S : Set XR) (i : ι) (r : Rev ι XR) : Prop := BadAdj S i r.adj

/-- A NaN cotangent reaches input `i`. -/
abbrev Reach (i : ι) (r : Rev ι XR) : Prop := Bad {nan} i r

/-- Whatever the cotangent, the gradient at input `i` is NaN. -/
abbrev NaNGrad (i : ι) (r : Rev ι XR) : Prop := Bad Set.univ i r

namespace BadAdj
variable {S T : Set XR} {i : ι} {o o' : Option (XR → ι → XR)}
theorem l (h : BadAdj S i o) : BadAdj S i (Rev.addAdj o o') := by
  obtain ⟨b, rfl, hb⟩ := h
  cases o' with
  | none => exact ⟨b, rfl, hb⟩
  | some c => exact ⟨_, rfl, fun ct h => by rw [hb ct h, XR.nan_add]⟩
theorem r (h : BadAdj S i o') : BadAdj S i (Rev.addAdj o o') := by
  obtain ⟨b, rfl, hb⟩ := h
  cases o with
  | none => exact ⟨b, rfl, hb⟩
  | some c => exact ⟨_, rfl, fun ct h => by rw [hb ct h, XR.add_nan]⟩
theorem pre {x : Rev ι XR} {f : XR → XR} (h : Bad T i x) (hf : ∀ ct ∈ S, f ct ∈ T) : BadAdj S i (x.pre f) := by
  obtain ⟨b, hb, hT⟩ := h
  exact ⟨_, by rw [Rev.pre, hb, Option.map_some], fun ct hct => hT _ (hf ct hct)⟩
end BadAdj

namespace Bad
variable {S T : Set XR} {i : ι} {x y : Rev ι XR}

theorem mono (h : Bad T i x) (hS : S ⊆ T) : Bad S i x := by
  obtain ⟨b, hb, h⟩ := h
  exact ⟨b, hb, fun ct hct => h ct (hS hct)⟩

theorem reach (h : NaNGrad i x) : Reach i x := h.mono (Set.subset_univ _)

/-- `jax.grad` of such a value has a NaN at `i`. -/
theorem grad (h : NaNGrad i x) : x.grad i = nan := by
  obtain ⟨b, hb, h⟩ := h
  rw [Rev.grad, hb]
  exact h _ trivial

end Bad

/-- The sets of cotangents that arise: NaN only, or all. -/
class Absorb (S : Set XR) : Prop where
  /-- closed under every operation that keeps NaN -/
  map : ∀ f : XR → XR, f nan = nan → ∀ ct ∈ S, f ct ∈ S

instance : Absorb {nan} := ⟨fun f hf ct h => by rw [Set.mem_singleton_iff] at h ⊢; rw [h, hf]⟩
instance : Absorb Set.univ := ⟨fun _ _ _ _ => trivial⟩

namespace Bad
variable {S : Set XR} [Absorb S] {i : ι} {x y : Rev ι XR}

theorem pre {f : XR → XR} (h : Bad S i x) (hf : f nan = nan) : BadAdj S i (x.pre f) := BadAdj.pre h (Absorb.map f hf)
omit [Absorb S] in
theorem add_l (h : Bad S i x) : Bad S i (x + y) := BadAdj.l h
omit [Absorb S] in
theorem add_r (h : Bad S i y) : Bad S i (x + y) := BadAdj.r h
omit [Absorb S] in
theorem sub_l (h : Bad S i x) : Bad S i (x - y) := BadAdj.l h
theorem sub_r (h : Bad S i y) : Bad S i (x - y) := BadAdj.r (h.pre rfl)
theorem neg (h : Bad S i x) : Bad S i (-x) := h.pre rfl
theorem mul_l (h : Bad S i x) : Bad S i (x * y) := BadAdj.l (h.pre (XR.nan_mul _))
theorem mul_r (h : Bad S i y) : Bad S i (x * y) := BadAdj.r (h.pre (XR.mul_nan _))
theorem div_l (h : Bad S i x) : Bad S i (x / y) := BadAdj.l (h.pre (XR.nan_div _))
theorem div_r (h : Bad S i y) : Bad S i (x / y) := BadAdj.r (h.pre (by simp))
theorem pow (h : Bad S i x) (n : ℕ) : Bad S i (x ^ (n + 1)) :=
  h.pre (f := fun ct => if n + 1 = 0 then _ else ct * _) (by rw [if_neg (Nat.succ_ne_zero n), XR.nan_mul])
theorem sqrt (h : Bad S i x) : Bad S i (JFun.sqrt x) := h.pre (XR.nan_mul _)
theorem arccos (h : Bad S i x) : Bad S i (JFun.arccos x) := h.pre (XR.nan_mul _)
theorem arctan2_l (h : Bad S i x) : Bad S i (JFun.arctan2 x y) := BadAdj.l (h.pre (XR.nan_mul _))
theorem arctan2_r (h : Bad S i y) : Bad S i (JFun.arctan2 x y) := BadAdj.r (h.pre (by simp))
end Bad

end Adx
