import Verif.Props.C29
import Verif.Lemmas.Symp
import Mathlib.LinearAlgebra.SymplecticGroup

/-! # C30: `dxdx0` is symplectic -/

namespace Adx
open Spec V3

/-- Closed form of `dxdx0` applied to a variation `(x, y)` of the initial state. -/
theorem dxdx0_apply {r v : V3 ℝ} {mu : ℝ} (hmu : 0 < mu) (hh : cross r v ≠ ⟨0, 0, 0⟩) (t : ℝ) (x y : V3 ℝ) :
    let P := exactProp r v mu t
    let Φ := dxdx0 P.1 P.2 r v t mu
    let χ := exactChi r v mu t
    let α := alphaOf r v mu
    let σ0 := sigma_fn r v mu
    let r0 := V3.norm r
    let R := radOf r v mu χ
    let w := Real.sqrt mu
    let C := (3 * U 5 χ α - χ * U 4 χ α - w * t * U 2 χ α) / w
    let rp := dot r x / r0
    let ap := -(2 * dot r x / r0 ^ 3) - 2 * dot v y / w ^ 2
    let sp := (dot r y + dot v x) / w
    let X := -(rp * U 1 χ α + sp * U 2 χ α + ap * w * C / 2) / R
    M3.mulVec Φ.rr x + M3.mulVec Φ.rv y = vF r0 (U 1 χ α) (U 2 χ α) rp ap X • r
        + vG r0 α σ0 w (U 1 χ α) (U 2 χ α) rp ap sp X • v
        + (1 - U 2 χ α / r0) • x + ((r0 * U 1 χ α + σ0 * U 2 χ α) / w) • y ∧
    M3.mulVec Φ.vr x + M3.mulVec Φ.vv y = vFt r0 R α σ0 w (U 1 χ α) (U 2 χ α) rp ap sp X • r
        + vGt r0 R α σ0 (U 1 χ α) (U 2 χ α) rp ap sp X • v
        + (-w / R * U 1 χ α / r0) • x + (1 - U 2 χ α / R) • y := by
  intro P Φ χ α σ0 r0 R w C rp ap sp X
  have hr := pos_ne hmu hh
  have h0 : r0 ≠ 0 := ((norm_pos _).2 hr).ne'
  have hs : w ≠ 0 := (Real.sqrt_pos.2 hmu).ne'
  have hs2 : w ^ 2 = mu := Real.sq_sqrt hmu.le
  have hn : V3.norm P.1 = R := step_norm hr hmu
  have hrad : R ≠ 0 := (radOf_pos hmu hh).ne'
  have hrv : dot P.1 P.2 = w * sigOf r v mu χ := step_rv hr hmu hrad
  have hrr := norm_sq P.1
  rw [hn] at hrr
  have hP : P = _ := exactProp_eq (r := r) (v := v) (mu := mu) t
  have hΦ : Φ = _ := dxdx0_eq hmu hh t
  have hRe : R = r0 * (1 - α * U 2 χ α) + σ0 * U 1 χ α + U 2 χ α := by
    simp only [R, radU, U0_eq]; rfl
  have hSe : sigOf r v mu χ = σ0 * (1 - α * U 2 χ α) + (1 - α * r0) * U 1 χ α := by
    simp only [sigOf, sigU, U0_eq]; rfl
  have h1 := U1_sq χ α
  have e1 := stm_F (U1 := U 1 χ α) (U2 := U 2 χ α) (C := C) (b := dot r y) (c := dot v x) (rp := rp) (ap := ap)
    (sp := sp) (X := X) h0 hrad hs rfl rfl rfl rfl
  have e2 := stm_G (U1 := U 1 χ α) (U2 := U 2 χ α) (C := C) (b := dot r y) (c := dot v x) (rp := rp) (ap := ap)
    (sp := sp) (X := X) h0 hrad hs rfl rfl rfl rfl hRe
  have e3 := stm_Ft (C := C) (b := dot r y) (c := dot v x) (rp := rp) (ap := ap)
    (sp := sp) (X := X) h0 hrad hs rfl rfl rfl rfl hRe h1
  have e4 := stm_Gt (C := C) (b := dot r y) (c := dot v x) (rp := rp) (ap := ap)
    (sp := sp) (X := X) h0 hrad hs rfl rfl rfl rfl hRe h1
  rw [hs2] at e1 e2 e3 e4
  rw [hΦ]
  simp only [mulVec_prpr0, mulVec_prpv0, mulVec_pvpr0, mulVec_pvpv0]
  rw [show (exactProp r v mu t) = P from rfl, hn, hrv, ← hrr, hP, hSe]
  simp only [cF, cG, cFt, cGt]
  have dot2 : ∀ (a b : ℝ) (z : V3 ℝ), dot (a • r + b • v) z = a * dot r z + b * dot v z := by
    intro a b z; simp only [dot, add_x, add_y, add_z, smul_x, smul_y, smul_z]; ring
  have dot3 : ∀ (a b : ℝ) (z : V3 ℝ), dot (a • r + b • v - v) z = a * dot r z + (b - 1) * dot v z := by
    intro a b z; simp only [dot, add_x, add_y, add_z, sub_x, sub_y, sub_z, smul_x, smul_y, smul_z]; ring
  simp only [dot2, dot3]
  have hRR : radU α r0 σ0 χ = R := rfl
  have c1 : exactChi r v mu t = χ := rfl
  have c2 : alphaOf r v mu = α := rfl
  have c3 : sigma_fn r v mu = σ0 := rfl
  have c4 : V3.norm r = r0 := rfl
  have c5 : Real.sqrt mu = w := rfl
  have c6 : (3 * U 5 χ α - χ * U 4 χ α - w * t * U 2 χ α) / w = C := rfl
  simp only [c1, c2, c3, c4, c5, c6, hRR]
  clear_value X rp ap sp C w R r0 σ0 α χ
  refine ⟨?_, ?_⟩
  · ext <;> simp only [add_x, add_y, add_z, sub_x, sub_y, sub_z, smul_x, smul_y, smul_z, vF, vG]
    · linear_combination -r.x * e1 - v.x * e2
    · linear_combination -r.y * e1 - v.y * e2
    · linear_combination -r.z * e1 - v.z * e2
  · ext <;> simp only [add_x, add_y, add_z, sub_x, sub_y, sub_z, neg_x, neg_y, neg_z, smul_x, smul_y, smul_z, vFt,
      vGt]
    · linear_combination -r.x * e3 - v.x * e4
    · linear_combination -r.y * e3 - v.y * e4
    · linear_combination -r.z * e3 - v.z * e4

/-- The symplectic form of two variations is preserved. -/
theorem dxdx0_form {r v : V3 ℝ} {mu : ℝ} (hmu : 0 < mu) (hh : cross r v ≠ ⟨0, 0, 0⟩) (t : ℝ)
    (x1 y1 x2 y2 : V3 ℝ) :
    let P := exactProp r v mu t
    let Φ := dxdx0 P.1 P.2 r v t mu
    dot (M3.mulVec Φ.rr x1 + M3.mulVec Φ.rv y1) (M3.mulVec Φ.vr x2 + M3.mulVec Φ.vv y2)
      - dot (M3.mulVec Φ.vr x1 + M3.mulVec Φ.vv y1) (M3.mulVec Φ.rr x2 + M3.mulVec Φ.rv y2)
      = dot x1 y2 - dot y1 x2 := by
  intro P Φ
  obtain ⟨p1, q1⟩ := dxdx0_apply hmu hh t x1 y1
  obtain ⟨p2, q2⟩ := dxdx0_apply hmu hh t x2 y2
  rw [p1, q1, p2, q2]
  have hr := pos_ne hmu hh
  have h0 : V3.norm r ≠ 0 := ((norm_pos _).2 hr).ne'
  have hs : Real.sqrt mu ≠ 0 := (Real.sqrt_pos.2 hmu).ne'
  have hs2 : Real.sqrt mu ^ 2 = mu := Real.sq_sqrt hmu.le
  have hrad : radOf r v mu (exactChi r v mu t) ≠ 0 := (radOf_pos hmu hh).ne'
  have h1 := U1_sq (exactChi r v mu t) (alphaOf r v mu)
  have hRe : radOf r v mu (exactChi r v mu t)
      = V3.norm r * (1 - alphaOf r v mu * U 2 (exactChi r v mu t) (alphaOf r v mu))
        + sigma_fn r v mu * U 1 (exactChi r v mu t) (alphaOf r v mu)
        + U 2 (exactChi r v mu t) (alphaOf r v mu) := by
    simp only [radOf, radU, U0_eq]
  have hrr := norm_sq r
  have hσ : dot r v = Real.sqrt mu * sigma_fn r v mu := by
    simp only [sigma_fn, sqrt_real]; field_simp
  have hvv : dot v v = Real.sqrt mu ^ 2 * (2 / V3.norm r - alphaOf r v mu) := by
    rw [hs2]; simp only [alphaOf, inv_semimajor_axis, invA]; field_simp; ring
  clear p1 q1 p2 q2
  generalize exactChi r v mu t = χ at *
  generalize alphaOf r v mu = α at *
  generalize sigma_fn r v mu = σ0 at *
  generalize radOf r v mu χ = R at *
  generalize V3.norm r = r0 at *
  generalize Real.sqrt mu = w at *
  generalize (3 * U 5 χ α - χ * U 4 χ α - w * t * U 2 χ α) / w = C at *
  generalize U 1 χ α = U1 at *
  generalize U 2 χ α = U2 at *
  have hab := symp_ab (C := C) h0 hrad hs rfl rfl rfl rfl rfl rfl rfl rfl rfl rfl rfl rfl hRe h1
  have hac := symp_ac (C := C) h0 hrad hs rfl rfl rfl rfl rfl rfl rfl rfl rfl rfl rfl rfl hRe h1
  have had := symp_ad (C := C) h0 hrad hs rfl rfl rfl rfl rfl rfl rfl rfl rfl rfl rfl rfl hRe h1
  have hbc := symp_bc (C := C) h0 hrad hs rfl rfl rfl rfl rfl rfl rfl rfl rfl rfl rfl rfl hRe h1
  have hbd := symp_bd (C := C) h0 hrad hs rfl rfl rfl rfl rfl rfl rfl rfl rfl rfl rfl rfl hRe h1
  have hcd := symp_cd (C := C) h0 hrad hs rfl rfl rfl rfl rfl rfl rfl rfl rfl rfl rfl rfl hRe h1
  have hW : (1 - U2 / r0) * (1 - U2 / R) - (r0 * U1 + σ0 * U2) / w * (-w / R * U1 / r0) = 1 := by
    field_simp
    linear_combination r0 * h1 - U2 * hRe
  -- the variations are linear in the inner products
  have lF : ∀ a b c d : ℝ, vF r0 U1 U2 (a / r0) (-(2 * a / r0 ^ 3) - 2 * d / w ^ 2)
        (-(a / r0 * U1 + (b + c) / w * U2 + (-(2 * a / r0 ^ 3) - 2 * d / w ^ 2) * w * C / 2) / R)
      = a * vF r0 U1 U2 (1 / r0) (-2 / r0 ^ 3) (-(U1 / r0 - w * C / r0 ^ 3) / R)
        + (b + c) * vF r0 U1 U2 0 0 (-(U2 / w) / R) + d * vF r0 U1 U2 0 (-2 / w ^ 2) (C / w / R) := by
    intro a b c d; simp only [vF]; field_simp; ring
  have lG : ∀ a b c d : ℝ, vG r0 α σ0 w U1 U2 (a / r0) (-(2 * a / r0 ^ 3) - 2 * d / w ^ 2) ((b + c) / w)
        (-(a / r0 * U1 + (b + c) / w * U2 + (-(2 * a / r0 ^ 3) - 2 * d / w ^ 2) * w * C / 2) / R)
      = a * vG r0 α σ0 w U1 U2 (1 / r0) (-2 / r0 ^ 3) 0 (-(U1 / r0 - w * C / r0 ^ 3) / R)
        + (b + c) * vG r0 α σ0 w U1 U2 0 0 (1 / w) (-(U2 / w) / R)
        + d * vG r0 α σ0 w U1 U2 0 (-2 / w ^ 2) 0 (C / w / R) := by
    intro a b c d; simp only [vG]; field_simp; ring
  have lT : ∀ a b c d : ℝ, vFt r0 R α σ0 w U1 U2 (a / r0) (-(2 * a / r0 ^ 3) - 2 * d / w ^ 2) ((b + c) / w)
        (-(a / r0 * U1 + (b + c) / w * U2 + (-(2 * a / r0 ^ 3) - 2 * d / w ^ 2) * w * C / 2) / R)
      = a * vFt r0 R α σ0 w U1 U2 (1 / r0) (-2 / r0 ^ 3) 0 (-(U1 / r0 - w * C / r0 ^ 3) / R)
        + (b + c) * vFt r0 R α σ0 w U1 U2 0 0 (1 / w) (-(U2 / w) / R)
        + d * vFt r0 R α σ0 w U1 U2 0 (-2 / w ^ 2) 0 (C / w / R) := by
    intro a b c d; simp only [vFt]; field_simp; ring
  have lS : ∀ a b c d : ℝ, vGt r0 R α σ0 U1 U2 (a / r0) (-(2 * a / r0 ^ 3) - 2 * d / w ^ 2) ((b + c) / w)
        (-(a / r0 * U1 + (b + c) / w * U2 + (-(2 * a / r0 ^ 3) - 2 * d / w ^ 2) * w * C / 2) / R)
      = a * vGt r0 R α σ0 U1 U2 (1 / r0) (-2 / r0 ^ 3) 0 (-(U1 / r0 - w * C / r0 ^ 3) / R)
        + (b + c) * vGt r0 R α σ0 U1 U2 0 0 (1 / w) (-(U2 / w) / R)
        + d * vGt r0 R α σ0 U1 U2 0 (-2 / w ^ 2) 0 (C / w / R) := by
    intro a b c d; simp only [vGt]; field_simp; ring
  simp only [lF, lG, lT, lS]
  clear lF lG lT lS
  generalize vF r0 U1 U2 (1 / r0) (-2 / r0 ^ 3) (-(U1 / r0 - w * C / r0 ^ 3) / R) = Fa at *
  generalize vG r0 α σ0 w U1 U2 (1 / r0) (-2 / r0 ^ 3) 0 (-(U1 / r0 - w * C / r0 ^ 3) / R) = Ga at *
  generalize vFt r0 R α σ0 w U1 U2 (1 / r0) (-2 / r0 ^ 3) 0 (-(U1 / r0 - w * C / r0 ^ 3) / R) = Ta at *
  generalize vGt r0 R α σ0 U1 U2 (1 / r0) (-2 / r0 ^ 3) 0 (-(U1 / r0 - w * C / r0 ^ 3) / R) = Sa at *
  generalize vF r0 U1 U2 0 0 (-(U2 / w) / R) = Fb at *
  generalize vG r0 α σ0 w U1 U2 0 0 (1 / w) (-(U2 / w) / R) = Gb at *
  generalize vFt r0 R α σ0 w U1 U2 0 0 (1 / w) (-(U2 / w) / R) = Tb at *
  generalize vGt r0 R α σ0 U1 U2 0 0 (1 / w) (-(U2 / w) / R) = Sb at *
  generalize vF r0 U1 U2 0 (-2 / w ^ 2) (C / w / R) = Fd at *
  generalize vG r0 α σ0 w U1 U2 0 (-2 / w ^ 2) 0 (C / w / R) = Gd at *
  generalize vFt r0 R α σ0 w U1 U2 0 (-2 / w ^ 2) 0 (C / w / R) = Td at *
  generalize vGt r0 R α σ0 U1 U2 0 (-2 / w ^ 2) 0 (C / w / R) = Sd at *
  generalize 1 - U2 / r0 = F at *
  generalize 1 - U2 / R = S at *
  generalize (r0 * U1 + σ0 * U2) / w = G at *
  generalize -w / R * U1 / r0 = T at *
  rw [← hvv, ← hσ, hrr] at hab hac had hbc hbd hcd
  have expand : ∀ a b c d a' b' c' d' : ℝ, ∀ x y x' y' : V3 ℝ,
      dot (a • r + b • v + c • x + d • y) (a' • r + b' • v + c' • x' + d' • y')
      = a * a' * dot r r + (a * b' + b * a') * dot r v + b * b' * dot v v + a * (c' * dot r x' + d' * dot r y')
        + b * (c' * dot v x' + d' * dot v y') + a' * (c * dot r x + d * dot r y) + b' * (c * dot v x + d * dot v y)
        + c * c' * dot x x' + c * d' * dot x y' + d * c' * dot y x' + d * d' * dot y y' := by
    intros; simp only [dot, add_x, add_y, add_z, smul_x, smul_y, smul_z]; ring
  simp only [expand]
  linear_combination (dot r x1 * dot r y2 - dot r y1 * dot r x2) * hab
    + (dot r x1 * dot v x2 - dot v x1 * dot r x2) * hac + (dot r x1 * dot v y2 - dot v y1 * dot r x2) * had
    + (dot r y1 * dot v x2 - dot v x1 * dot r y2) * hbc + (dot r y1 * dot v y2 - dot v y1 * dot r y2) * hbd
    + (dot v x1 * dot v y2 - dot v y1 * dot v x2) * hcd + (dot x1 y2 - dot y1 x2) * hW

theorem dotProduct_J (u z : Fin 3 ⊕ Fin 3 → ℝ) :
    u ⬝ᵥ (Matrix.J (Fin 3) ℝ).mulVec z = dot (velOf u) (posOf z) - dot (posOf u) (velOf z) := by
  rw [Matrix.J, Matrix.fromBlocks_mulVec]
  simp [dotProduct, Fin.sum_univ_three, dot, posOf, velOf, Matrix.neg_mulVec]
  ring

theorem posOf_phase (q : V3 ℝ × V3 ℝ) : posOf (phase q) = q.1 := rfl
theorem velOf_phase (q : V3 ℝ × V3 ℝ) : velOf (phase q) = q.2 := rfl

section
variable {r v : V3 ℝ} {mu : ℝ} (hmu : 0 < mu) (hh : angular_momentum r v ≠ ⟨0, 0, 0⟩) (t : ℝ)
include hmu hh

open Matrix in
/-- C30: `Φᵀ J Φ = J` for `Φ = dxdx0` at the exactly propagated state. -/
theorem C30_symplectic :
    let P := exactProp r v mu t
    let Φ := (dxdx0 P.1 P.2 r v t mu).mat
    Φᵀ * Matrix.J (Fin 3) ℝ * Φ = Matrix.J (Fin 3) ℝ := by
  intro P Φ
  have key : ∀ u z : Fin 3 ⊕ Fin 3 → ℝ,
      u ⬝ᵥ (Φᵀ * Matrix.J (Fin 3) ℝ * Φ).mulVec z = u ⬝ᵥ (Matrix.J (Fin 3) ℝ).mulVec z := by
    intro u z
    rw [← Matrix.mulVec_mulVec, ← Matrix.mulVec_mulVec, Matrix.dotProduct_mulVec, Matrix.vecMul_transpose,
      dotProduct_J, dotProduct_J]
    simp only [Φ, B6.mat_mulVec, posOf_phase, velOf_phase]
    have := dxdx0_form hmu hh t (posOf u) (velOf u) (posOf z) (velOf z)
    simp only at this
    linear_combination -this
  ext i j
  have := key (Pi.single i 1) (Pi.single j 1)
  simpa using this

/-- C30: the determinant is one (exact propagation preserves phase-space volume). -/
theorem C30_det :
    let P := exactProp r v mu t
    (dxdx0 P.1 P.2 r v t mu).mat.det = 1 :=
  SymplecticGroup.det_eq_one (SymplecticGroup.mem_iff'.2 (C30_symplectic hmu hh t))

open Matrix in
/-- C30: the inverse is `-J Φᵀ J`. -/
theorem C30_inverse :
    let P := exactProp r v mu t
    let Φ := (dxdx0 P.1 P.2 r v t mu).mat
    (-Matrix.J (Fin 3) ℝ * Φᵀ * Matrix.J (Fin 3) ℝ) * Φ = 1 ∧
      Φ * (-Matrix.J (Fin 3) ℝ * Φᵀ * Matrix.J (Fin 3) ℝ) = 1 := by
  intro P Φ
  have h : (-Matrix.J (Fin 3) ℝ * Φᵀ * Matrix.J (Fin 3) ℝ) * Φ = 1 := by
    rw [mul_assoc, mul_assoc, ← mul_assoc Φᵀ, C30_symplectic hmu hh t, neg_mul, Matrix.J_squared, neg_neg]
  exact ⟨h, mul_eq_one_comm.1 h⟩

end

/-- The hypotheses hold for the state `(1,0,0), (0,1,0)`. -/
example (t : ℝ) :
    let P := exactProp ⟨1, 0, 0⟩ ⟨0, 1, 0⟩ 1 t
    (dxdx0 P.1 P.2 ⟨1, 0, 0⟩ ⟨0, 1, 0⟩ t 1).mat.det = 1 :=
  C30_det one_pos (by
    intro h
    have := congrArg V3.z h
    simp [angular_momentum, V3.cross] at this) t

end Adx
