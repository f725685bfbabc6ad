import Verif.Lemmas.Implicit
import Verif.Lemmas.Rot
import Verif.Props.C21
import Verif.Model.StateTrans

/-! # The derivative of exact Kepler propagation along a curve of initial states -/

namespace Adx
open Spec V3 Filter Topology

/-! ### Algebraic identities

`a = r0·δr, b = r0·δv, c = v0·δr, d = v0·δv` are the inner products of the initial state with its variation;
`rp, ap, sp` are the variations of `|r0|`, `α`, `σ0`; `X` that of `χ` (plus `α' U3 / 2`). -/

section
variable {r0 R w C α σ0 U1 U2 a b c d rp ap sp X : ℝ} (h0 : r0 ≠ 0) (hR : R ≠ 0) (hw : w ≠ 0)
  (hrp : rp = a / r0) (hap : ap = -(2 * a / r0 ^ 3) - 2 * d / w ^ 2) (hsp : sp = (b + c) / w)
  (hX : X = -(rp * U1 + sp * U2 + ap * w * C / 2) / R)
include h0 hR hw hrp hap hsp hX

theorem stm_F :
    -((U1 * X - ap * U2 ^ 2 / 2) * r0 - U2 * rp) / r0 ^ 2
      = R / w ^ 2 * (-w / R * U1 / r0 * a + -(U2 / R) * c) * (-w / R * U1 / r0)
        + U2 / r0 / r0 ^ 2 * a * (1 - U2 / r0) + C / r0 ^ 3 * a * (-w / R * U1 / r0)
        + r0 / w ^ 2 * (U2 / r0) * (-(U2 / r0) * d - -w / R * U1 / r0 * b)
        + C / w ^ 2 * d * (-w / R * U1 / r0) := by
  subst hX hap hsp hrp
  field_simp
  ring

variable (hRe : R = r0 * (1 - α * U2) + σ0 * U1 + U2)
include hRe

theorem stm_G :
    (rp * U1 + r0 * ((1 - α * U2) * X - ap * (U1 * U2) / 2) + sp * U2 + σ0 * (U1 * X - ap * U2 ^ 2 / 2)) / w
      = R / w ^ 2 * (-w / R * U1 / r0 * a + -(U2 / R) * c) * -(U2 / R)
        + U2 / r0 / r0 ^ 2 * a * ((r0 * U1 + σ0 * U2) / w) + C / r0 ^ 3 * a * (1 - U2 / R)
        + r0 / w ^ 2 * (U2 / r0) * ((r0 * U1 + σ0 * U2) / w * d - -(U2 / R) * b)
        + C / w ^ 2 * d * (1 - U2 / R) := by
  subst hX hap hsp hrp
  linear_combination (norm := (field_simp; ring1)) (((-1) * C * d * r0 ^ 3 + U1 * a * r0 ^ 2 * w + U2 * b * r0 ^ 3
    + U2 * c * r0 ^ 3 + (-1) * C * a * w ^ 2) / (r0 ^ 3 * R ^ 1 * w ^ 2)) * hRe

variable (h1 : U1 ^ 2 = U2 * (2 - α * U2))
include h1

theorem stm_Ft :
    -w * (((1 - α * U2) * X - ap * (U1 * U2) / 2) / (R * r0)
        - U1 * (rp * (1 - α * U2) + r0 * (-(α * U1) * X - ap * U1 ^ 2 / 2) + sp * U1
            + σ0 * ((1 - α * U2) * X - ap * (U1 * U2) / 2) + (U1 * X - ap * U2 ^ 2 / 2)) / (R ^ 2 * r0)
        - U1 * rp / (R * r0 ^ 2))
      = -(-w / R * U1 / r0 * a / r0 ^ 2)
        - (1 - U2 / r0) / R ^ 2 * (-w / R * U1 / r0 * a + -(U2 / R) * c)
        + -w / R * U1 / r0 * (-(((1 - U2 / r0) * a + (r0 * U1 + σ0 * U2) / w * c) / R ^ 2 * (1 - U2 / r0))
            + (-w / R * U1 / r0 * a + -(U2 / R) * c) / w ^ 2 / R
              * (w * (σ0 * (1 - α * U2) + (1 - α * r0) * U1) * (1 - U2 / r0) - R ^ 2 * (-w / R * U1 / r0)))
        - w ^ 2 * C / R ^ 3 / r0 ^ 3 * a * (1 - U2 / r0)
        + r0 / w ^ 2 * (-w / R * U1 / r0 * b + -(U2 / R) * d) * (-w / R * U1 / r0)
        + U2 / r0 * b * r0 / R ^ 3 * (1 - U2 / r0) - C / R ^ 3 * d * (1 - U2 / r0) := by
  subst hX hap hsp hrp
  linear_combination (norm := (field_simp; ring1)) ((U1 * U2 ^ 2 * d * r0 ^ 4 * α + C * U2 * d * r0 ^ 3 * w * α +
    (-2) * U1 * U2 * a * r0 ^ 2 * w ^ 2 * α + U1 * U2 ^ 2 * a * r0 * w ^ 2 * α + U1 ^ 3 * d * r0 ^ 4 + (-1) * U2 ^ 2
    * b * r0 ^ 3 * w * α + (-1) * U2 ^ 2 * c * r0 ^ 3 * w * α + C * U2 * a * w ^ 3 * α + (-1) * R * U1 * U2 * d * r0
    ^ 3 + (-2) * U1 * U2 * d * r0 ^ 4 + (-1) * U1 ^ 2 * U2 * c * r0 ^ 2 * w + U1 ^ 2 * c * r0 ^ 3 * w + (-1) * C * d
    * r0 ^ 3 * w + (-1) * R * U1 * U2 * a * w ^ 2 + (-1) * U1 * U2 * a * r0 * w ^ 2 + 2 * U1 * a * r0 ^ 2 * w ^ 2 +
    U2 * b * r0 ^ 3 * w + U2 * c * r0 ^ 3 * w + (-1) * C * a * w ^ 3) / (r0 ^ 4 * R ^ 3 * w ^ 1)) * hRe + (((-1) *
    U1 * U2 * d * r0 ^ 5 * α + (-1) * C * d * r0 ^ 4 * w * α + (-1) * U1 * U2 * a * r0 ^ 2 * w ^ 2 * α + 2 * U1 * a
    * r0 ^ 3 * w ^ 2 * α + U1 ^ 2 * d * r0 ^ 4 * σ0 + U2 * b * r0 ^ 4 * w * α + U2 * c * r0 ^ 4 * w * α + (-1) * C *
    a * r0 * w ^ 3 * α + (-1) * U1 * U2 * c * r0 ^ 2 * w * σ0 + U1 * U2 * d * r0 ^ 4 + U1 * c * r0 ^ 3 * w * σ0 + U1
    * d * r0 ^ 5 + C * d * r0 ^ 3 * w + U1 * U2 * a * r0 * w ^ 2 + (-2) * U1 * a * r0 ^ 2 * w ^ 2 + (-1) * U2 * b *
    r0 ^ 3 * w + (-1) * U2 * c * r0 ^ 3 * w + C * a * w ^ 3) / (r0 ^ 4 * R ^ 3 * w ^ 1)) * h1

theorem stm_Gt :
    -((U1 * X - ap * U2 ^ 2 / 2) * R
        - U2 * (rp * (1 - α * U2) + r0 * (-(α * U1) * X - ap * U1 ^ 2 / 2) + sp * U1
            + σ0 * ((1 - α * U2) * X - ap * (U1 * U2) / 2) + (U1 * X - ap * U2 ^ 2 / 2))) / R ^ 2
      = -(-(U2 / R) * a / r0 ^ 2)
        - (r0 * U1 + σ0 * U2) / w / R ^ 2 * (-w / R * U1 / r0 * a + -(U2 / R) * c)
        + -w / R * U1 / r0
          * (-(((1 - U2 / r0) * a + (r0 * U1 + σ0 * U2) / w * c) / R ^ 2 * ((r0 * U1 + σ0 * U2) / w))
            + (-w / R * U1 / r0 * a + -(U2 / R) * c) / w ^ 2 / R
              * (w * (σ0 * (1 - α * U2) + (1 - α * r0) * U1) * ((r0 * U1 + σ0 * U2) / w) - R ^ 2 * (1 - U2 / R)))
        - w ^ 2 * C / R ^ 3 / r0 ^ 3 * a * ((r0 * U1 + σ0 * U2) / w)
        + r0 / w ^ 2 * (-w / R * U1 / r0 * b + -(U2 / R) * d) * -(U2 / R)
        + U2 / r0 * b * r0 / R ^ 3 * ((r0 * U1 + σ0 * U2) / w) - C / R ^ 3 * d * ((r0 * U1 + σ0 * U2) / w) := by
  subst hX hap hsp hrp
  linear_combination (norm := (field_simp; ring1)) (((-1) * U1 * U2 ^ 2 * c * r0 ^ 3 * w * α + (-1) * U1 ^ 2 * U2
    * a * r0 ^ 2 * w ^ 2 * α + U2 ^ 3 * d * r0 ^ 4 * α + U1 ^ 2 * U2 * c * r0 ^ 2 * w * σ0 + U1 ^ 2 * U2 * d * r0 ^
    4 + U1 ^ 3 * a * r0 * w ^ 2 * σ0 + U2 ^ 3 * a * r0 * w ^ 2 * α + (-1) * C * U1 * d * r0 ^ 3 * w + R * U1 * U2 *
    c * r0 ^ 2 * w + R * U1 ^ 2 * a * r0 * w ^ 2 + (-1) * R * U2 ^ 2 * d * r0 ^ 3 + (-1) * U1 * U2 * a * r0 * w ^ 2
    * σ0 + U1 * U2 * b * r0 ^ 3 * w + 3 * U1 * U2 * c * r0 ^ 3 * w + U1 ^ 2 * U2 * a * r0 * w ^ 2 + 2 * U1 ^ 2 * a *
    r0 ^ 2 * w ^ 2 + (-2) * U2 ^ 2 * d * r0 ^ 4 + (-1) * C * U1 * a * w ^ 3 + (-1) * R * U2 * a * r0 * w ^ 2 + (-1)
    * R * U2 ^ 2 * a * w ^ 2 + (-2) * U2 ^ 2 * a * r0 * w ^ 2) / (r0 ^ 3 * R ^ 3 * w ^ 2)) * hRe + ((U1 * U2 * c *
    r0 ^ 4 * w * α + U1 ^ 2 * a * r0 ^ 3 * w ^ 2 * α + (-1) * U2 ^ 2 * d * r0 ^ 5 * α + U1 * U2 * c * r0 ^ 2 * w *
    σ0 ^ 2 + U1 * U2 * d * r0 ^ 4 * σ0 + U1 ^ 2 * a * r0 * w ^ 2 * σ0 ^ 2 + (-1) * U2 ^ 2 * a * r0 ^ 2 * w ^ 2 * α +
    (-1) * C * d * r0 ^ 3 * w * σ0 + U1 * U2 * a * r0 * w ^ 2 * σ0 + (-1) * U1 * U2 * c * r0 ^ 3 * w + 2 * U1 * a *
    r0 ^ 2 * w ^ 2 * σ0 + (-1) * U1 * c * r0 ^ 4 * w + (-1) * U1 ^ 2 * a * r0 ^ 2 * w ^ 2 + U2 * b * r0 ^ 3 * w * σ0
    + U2 * c * r0 ^ 3 * w * σ0 + U2 * d * r0 ^ 5 + U2 ^ 2 * d * r0 ^ 4 + (-1) * C * a * w ^ 3 * σ0 + U2 * a * r0 ^ 2
    * w ^ 2 + U2 ^ 2 * a * r0 * w ^ 2) / (r0 ^ 3 * R ^ 3 * w ^ 2)) * h1

end

/-! ### Matrix-vector products of the four blocks -/

theorem mulVec_prpr0 (r v r0 v0 x : V3 ℝ) (F C mu : ℝ) :
    M3.mulVec (prpr0 r v r0 v0 F C mu) x
      = (V3.norm r / mu * dot (v - v0) x) • (v - v0) + ((1 - F) / V3.norm r0 ^ 2 * dot r0 x) • r
        + (C / V3.norm r0 ^ 3 * dot r0 x) • v + F • x := by
  ext <;> simp only [prpr0, M3.mulVec, M3.outer, M3.eye, dot, M3.add_r0, M3.add_r1, M3.add_r2, M3.smul_r0,
    M3.smul_r1, M3.smul_r2, add_x, add_y, add_z, sub_x, sub_y, sub_z, smul_x, smul_y, smul_z, div_x, div_y, div_z,
    Nat.cast_one, Nat.cast_zero] <;> ring

theorem mulVec_prpv0 (r v r0 v0 x : V3 ℝ) (F G C mu : ℝ) :
    M3.mulVec (prpv0 r v r0 v0 F G C mu) x
      = (V3.norm r0 / mu * (1 - F)) • (dot v0 x • (r - r0) - dot r0 x • (v - v0)) + (C / mu * dot v0 x) • v
        + G • x := by
  ext <;> simp only [prpv0, M3.mulVec, M3.outer, M3.eye, dot, M3.add_r0, M3.add_r1, M3.add_r2, M3.smul_r0,
    M3.smul_r1, M3.smul_r2, M3.sub_r0, M3.sub_r1, M3.sub_r2, add_x, add_y, add_z, sub_x, sub_y, sub_z, smul_x,
    smul_y, smul_z, Nat.cast_one, Nat.cast_zero] <;> ring

theorem mulVec_pvpr0 (r v r0 v0 x : V3 ℝ) (Ft C mu : ℝ) :
    M3.mulVec (pvpr0 r v r0 v0 Ft C mu) x
      = -((dot r0 x / V3.norm r0 ^ 2) • (v - v0)) - (dot (v - v0) x / V3.norm r ^ 2) • r
        + Ft • (x - (dot r x / V3.norm r ^ 2) • r
          + (dot (v - v0) x / mu / V3.norm r) • (dot r v • r - dot r r • v))
        - (mu * C / V3.norm r ^ 3 / V3.norm r0 ^ 3 * dot r0 x) • r := by
  ext <;> simp only [pvpr0, M3.mulVec, M3.mul, M3.transpose, M3.outer, M3.eye, dot, M3.add_r0, M3.add_r1, M3.add_r2,
    M3.smul_r0, M3.smul_r1, M3.smul_r2, M3.sub_r0, M3.sub_r1, M3.sub_r2, M3.neg_r0, M3.neg_r1, M3.neg_r2, M3.div_r0,
    M3.div_r1, M3.div_r2, add_x, add_y, add_z, sub_x, sub_y, sub_z, neg_x, neg_y, neg_z, div_x, div_y, div_z, smul_x,
    smul_y, smul_z, Nat.cast_one, Nat.cast_zero] <;> ring

theorem mulVec_pvpv0 (r v r0 v0 x : V3 ℝ) (F Gt C mu : ℝ) :
    M3.mulVec (pvpv0 r v r0 v0 F Gt C mu) x
      = (V3.norm r0 / mu * dot (v - v0) x) • (v - v0) + ((1 - F) * dot r0 x * V3.norm r0 / V3.norm r ^ 3) • r
        - (C / V3.norm r ^ 3 * dot v0 x) • r + Gt • x := by
  ext <;> simp only [pvpv0, M3.mulVec, M3.outer, M3.eye, dot, M3.add_r0, M3.add_r1, M3.add_r2, M3.smul_r0,
    M3.smul_r1, M3.smul_r2, M3.sub_r0, M3.sub_r1, M3.sub_r2, M3.div_r0, M3.div_r1, M3.div_r2, add_x, add_y, add_z,
    sub_x, sub_y, sub_z, div_x, div_y, div_z, smul_x, smul_y, smul_z, Nat.cast_one, Nat.cast_zero] <;> ring

/-! ### Differentiability in the initial state -/

/-- Component-wise differentiability of a vector-valued map. -/
structure DiffV {E : Type*} [NormedAddCommGroup E] [NormedSpace ℝ E] (f : E → V3 ℝ) (s : E) : Prop where
  /-- first component -/
  x : DifferentiableAt ℝ (fun s => (f s).x) s
  /-- second component -/
  y : DifferentiableAt ℝ (fun s => (f s).y) s
  /-- third component -/
  z : DifferentiableAt ℝ (fun s => (f s).z) s

section
variable {E : Type*} [NormedAddCommGroup E] [NormedSpace ℝ E] {f g : E → V3 ℝ} {s : E}

theorem differentiableAt_div {a b : E → ℝ} (ha : DifferentiableAt ℝ a s) (hb : DifferentiableAt ℝ b s)
    (h : b s ≠ 0) : DifferentiableAt ℝ (fun s => a s / b s) s := by
  simp only [div_eq_mul_inv]
  exact ha.fun_mul (DifferentiableAt.comp (g := fun x : ℝ => x⁻¹) s (hasDerivAt_inv h).differentiableAt hb)

theorem differentiableAt_div_const {a : E → ℝ} (ha : DifferentiableAt ℝ a s) (k : ℝ) :
    DifferentiableAt ℝ (fun s => a s / k) s := by
  simp only [div_eq_mul_inv]
  exact ha.fun_mul (differentiableAt_const _)

theorem DiffV.dot (hf : DiffV f s) (hg : DiffV g s) : DifferentiableAt ℝ (fun s => V3.dot (f s) (g s)) s :=
  ((hf.x.fun_mul hg.x).fun_add (hf.y.fun_mul hg.y)).fun_add (hf.z.fun_mul hg.z)

theorem DiffV.norm (hf : DiffV f s) (h0 : V3.norm (f s) ≠ 0) : DifferentiableAt ℝ (fun s => V3.norm (f s)) s := by
  have hd : V3.dot (f s) (f s) ≠ 0 := by rw [← norm_mul_self]; exact mul_ne_zero h0 h0
  exact (hf.dot hf).sqrt hd

theorem DiffV.cross (hf : DiffV f s) (hg : DiffV g s) : DiffV (fun s => V3.cross (f s) (g s)) s :=
  ⟨(hf.y.fun_mul hg.z).fun_sub (hf.z.fun_mul hg.y), (hf.z.fun_mul hg.x).fun_sub (hf.x.fun_mul hg.z),
    (hf.x.fun_mul hg.y).fun_sub (hf.y.fun_mul hg.x)⟩

theorem DiffV.add (hf : DiffV f s) (hg : DiffV g s) : DiffV (fun s => f s + g s) s :=
  ⟨hf.x.fun_add hg.x, hf.y.fun_add hg.y, hf.z.fun_add hg.z⟩

theorem DiffV.smul {k : E → ℝ} (hk : DifferentiableAt ℝ k s) (hf : DiffV f s) : DiffV (fun s => k s • f s) s :=
  ⟨hk.fun_mul hf.x, hk.fun_mul hf.y, hk.fun_mul hf.z⟩

variable {mu t : ℝ} (hmu : 0 < mu) (hh : V3.cross (f s) (g s) ≠ ⟨0, 0, 0⟩) (hf : DiffV f s) (hg : DiffV g s)
include hmu hh hf hg

theorem differentiableAt_alphaOf : DifferentiableAt ℝ (fun s => alphaOf (f s) (g s) mu) s := by
  have h0 := (state_invariant_pos hmu hh).1.ne'
  simp only [alphaOf, inv_semimajor_axis, invA]
  exact (differentiableAt_div (differentiableAt_const 2) (hf.norm h0) h0).fun_sub
    (differentiableAt_div_const (hg.dot hg) mu)

omit hmu hh in
theorem differentiableAt_sigma : DifferentiableAt ℝ (fun s => sigma_fn (f s) (g s) mu) s := by
  simp only [sigma_fn, sqrt_real]
  exact differentiableAt_div_const (hf.dot hg) _

omit hmu in
theorem eventually_cross_ne : ∀ᶠ s in 𝓝 s, V3.cross (f s) (g s) ≠ ⟨0, 0, 0⟩ := by
  have hc := ((hf.cross hg).dot (hf.cross hg)).continuousAt
  filter_upwards [hc.eventually_const_lt ((dot_self_pos _).2 hh)] with s hs
  exact (dot_self_pos _).1 hs

theorem differentiableAt_exactChi : DifferentiableAt ℝ (fun s => exactChi (f s) (g s) mu t) s := by
  have h0 := (state_invariant_pos hmu hh).1.ne'
  have hev := eventually_cross_ne hh hf hg
  refine differentiableAt_root (differentiableAt_alphaOf hmu hh hf hg) (hf.norm h0)
    (differentiableAt_sigma (mu := mu) hf hg) (c := Real.sqrt mu * t) ?_ ?_
  · filter_upwards [hev] with s hs x
    exact radOf_pos hmu hs
  · filter_upwards [hev] with s hs
    exact kepU_exactChi hmu hs t

/-- Exact propagation over a fixed time is differentiable in the initial state. -/
theorem diffV_exactProp : DiffV (fun s => (exactProp (f s) (g s) mu t).1) s ∧
    DiffV (fun s => (exactProp (f s) (g s) mu t).2) s := by
  have h0 := (state_invariant_pos hmu hh).1.ne'
  have hX := differentiableAt_exactChi (t := t) hmu hh hf hg
  have hA := differentiableAt_alphaOf hmu hh hf hg
  have hS := differentiableAt_sigma (mu := mu) hf hg
  have hN := hf.norm h0
  have hR0 : radOf (f s) (g s) mu (exactChi (f s) (g s) mu t) ≠ 0 := (radOf_pos hmu hh).ne'
  have hU0 := differentiableAt_U 0 hX hA
  have hU1 := differentiableAt_U 1 hX hA
  have hU2 := differentiableAt_U 2 hX hA
  have hR : DifferentiableAt ℝ (fun s => radOf (f s) (g s) mu (exactChi (f s) (g s) mu t)) s := by
    simp only [radOf, radU]
    exact ((hN.fun_mul hU0).fun_add (hS.fun_mul hU1)).fun_add hU2
  simp only [exactProp_eq, cF, cG, cFt, cGt]
  refine ⟨DiffV.add (.smul ?_ hf) (.smul ?_ hg), DiffV.add (.smul ?_ hf) (.smul ?_ hg)⟩
  · exact (differentiableAt_const 1).fun_sub (differentiableAt_div hU2 hN h0)
  · exact differentiableAt_div_const ((hN.fun_mul hU1).fun_add (hS.fun_mul hU2)) _
  · exact differentiableAt_div
      ((differentiableAt_div (differentiableAt_const (-Real.sqrt mu)) hR hR0).fun_mul hU1) hN h0
  · exact (differentiableAt_const 1).fun_sub (differentiableAt_div hU2 hR hR0)

end

end Adx
