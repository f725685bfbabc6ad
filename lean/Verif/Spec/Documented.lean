import Mathlib.Analysis.SpecialFunctions.Complex.Arg
import Mathlib.Analysis.SpecialFunctions.Pow.Real
import Mathlib.Analysis.SpecialFunctions.Trigonometric.Inverse
import Mathlib.Data.Matrix.Mul
import Mathlib.LinearAlgebra.CrossProduct

/-! # The formulas displayed in the docstrings

Transcribed from the `$$ … $$` blocks of `src/astrodynx`, over `ℝ`, with Mathlib's vectors and matrices and without the model's
definitions. The line numbers are those of the displayed formula. -/

namespace Adx.Spec.Doc
open Matrix

/-- A vector of the docstrings. -/
abbrev Vec := Fin 3 → ℝ

/-- The norm of a vector, `r` next to a bold `r`. -/
noncomputable def len (a : Vec) : ℝ := √(a ⬝ᵥ a)

/-- `a bᵀ` -/
def op (a b : Vec) : Matrix (Fin 3) (Fin 3) ℝ := vecMulVec a b

/-- `arctan2(y, x)`, the angle of the point `(x, y)` in `(-π, π]`. -/
noncomputable def atan2 (y x : ℝ) : ℝ := Complex.arg (x + y * Complex.I)

/-! ## _orb_integrals.py -/

/-- :22 -/
noncomputable def orb_period (a μ : ℝ) : ℝ := 2 * Real.pi * √(a ^ 3 / μ)
/-- :63 -/
noncomputable def a_from_period (P μ : ℝ) : ℝ := √(P ^ 2 * μ / (4 * Real.pi ^ 2))
/-- :100 -/
def angular_momentum (r v : Vec) : Vec := r ⨯₃ v
/-- :143 -/
noncomputable def semimajor_axis (r v μ : ℝ) : ℝ := (2 / r - v ^ 2 / μ)⁻¹
/-- :189 -/
noncomputable def eccentricity_vector (r v : Vec) (μ : ℝ) : Vec :=
  μ⁻¹ • (v ⨯₃ angular_momentum r v) - (len r)⁻¹ • r
/-- :236 -/
noncomputable def semiparameter (h μ : ℝ) : ℝ := h ^ 2 / μ
/-- :276 -/
noncomputable def mean_motion (P : ℝ) : ℝ := 2 * Real.pi / P
/-- :316 -/
noncomputable def equ_of_orbit (p e f : ℝ) : ℝ := p / (1 + e * Real.cos f)
/-- :363 -/
def equ_of_orb_uvi (U0 U1 U2 r0 σ0 : ℝ) : ℝ := r0 * U0 + σ0 * U1 + U2
/-- :410 -/
noncomputable def radius_periapsis (p e : ℝ) : ℝ := p / (1 + e)
/-- :451 -/
noncomputable def radius_apoapsis (p e : ℝ) : ℝ := p / (1 - e)
/-- :492 -/
def semipara_from_ae (a e : ℝ) : ℝ := a * (1 - e ^ 2)
/-- :533 -/
noncomputable def a_from_pe (p e : ℝ) : ℝ := p / (1 - e ^ 2)

/-! ## _uniformulas.py, _lagrange.py, _kep_equ.py -/

/-- _uniformulas.py:23 -/
noncomputable def sigma (r v : Vec) (μ : ℝ) : ℝ := r ⬝ᵥ v / √μ
/-- _uniformulas.py:66-70 -/
noncomputable def U0 (χ α : ℝ) : ℝ :=
  if α = 0 then 1 else if 0 < α then Real.cos (√α * χ) else Real.cosh (√(-α) * χ)
/-- _uniformulas.py:118-122 -/
noncomputable def U1 (χ α : ℝ) : ℝ :=
  if 0 < α then Real.sin (√α * χ) / √α else if α < 0 then Real.sinh (√(-α) * χ) / √(-α) else χ
/-- _uniformulas.py:170-174 -/
noncomputable def U2 (χ α : ℝ) : ℝ :=
  if 0 < α then (1 - Real.cos (√α * χ)) / α else if α < 0 then (Real.cosh (√(-α) * χ) - 1) / -α else χ ^ 2 / 2
/-- _uniformulas.py:222-226 -/
noncomputable def U3 (χ α : ℝ) : ℝ :=
  if 0 < α then (√α * χ - Real.sin (√α * χ)) / (α * √α)
  else if α < 0 then (√(-α) * χ - Real.sinh (√(-α) * χ)) / (α * √(-α)) else χ ^ 3 / 6
/-- _uniformulas.py:278-282 -/
noncomputable def U4 (χ α : ℝ) : ℝ :=
  if 0 < α then (α * χ ^ 2 - 2 + 2 * Real.cos (√α * χ)) / (2 * α ^ 2)
  else if α < 0 then (α * χ ^ 2 - 2 + 2 * Real.cosh (√(-α) * χ)) / (2 * α ^ 2) else χ ^ 4 / 24
/-- _uniformulas.py:332-336 -/
noncomputable def U5 (χ α : ℝ) : ℝ :=
  if 0 < α then (α ^ 2 * χ ^ 3 - 6 * α * χ + 6 * √α * Real.sin (√α * χ)) / (6 * α ^ 3)
  else if α < 0 then (α ^ 2 * χ ^ 3 - 6 * α * χ - 6 * √(-α) * Real.sinh (√(-α) * χ)) / (6 * α ^ 3) else χ ^ 5 / 120

/-- _lagrange.py:21 -/
noncomputable def F (U2 r0 : ℝ) : ℝ := 1 - U2 / r0
/-- _lagrange.py:70 -/
noncomputable def G (U1 U2 σ0 r0 μ : ℝ) : ℝ := (r0 * U1 + σ0 * U2) / √μ
/-- _lagrange.py:120 -/
noncomputable def Ft (U1 r r0 μ : ℝ) : ℝ := -(√μ / (r * r0)) * U1
/-- _lagrange.py:164 -/
noncomputable def Gt (U2 r : ℝ) : ℝ := 1 - U2 / r

/-- _kep_equ.py:25, as the difference of the two sides -/
noncomputable def kepler_equ_elps (E e M : ℝ) : ℝ := E - e * Real.sin E - M
/-- _kep_equ.py:67 -/
noncomputable def dE (E e : ℝ) : ℝ := 1 - e * Real.cos E
/-- _kep_equ.py:88, as the difference of the two sides -/
noncomputable def kepler_equ_hypb (H e N : ℝ) : ℝ := e * Real.sinh H - H - N
/-- _kep_equ.py:130 -/
noncomputable def dH (H e : ℝ) : ℝ := e * Real.cosh H - 1
/-- _kep_equ.py:151 -/
noncomputable def mean_anomaly_elps (a Δt μ : ℝ) : ℝ := √(μ / a ^ 3) * Δt
/-- _kep_equ.py:194 -/
noncomputable def mean_anomaly_hypb (a Δt μ : ℝ) : ℝ := √(μ / -a ^ 3) * Δt
/-- _kep_equ.py:247 -/
noncomputable def kepler_equ_uni (χ α r0 σ0 Δt μ : ℝ) : ℝ := r0 * U1 χ α + σ0 * U2 χ α + U3 χ α - √μ * Δt
/-- _kep_equ.py:315 -/
noncomputable def generalized_anomaly (α σ σ0 Δt μ : ℝ) : ℝ := α * √μ * Δt + σ - σ0

/-! ## _orb_elements.py, _rot_mat.py -/

/-- _orb_elements.py:25 -/
noncomputable def inclination (h : Vec) : ℝ := Real.arccos (h 2 / len h)
/-- _orb_elements.py:45 -/
noncomputable def true_anomaly (r e : Vec) : ℝ := atan2 (len (e ⨯₃ r)) (e ⬝ᵥ r)
/-- _orb_elements.py:128 -/
def node (h : Vec) : Vec := ![0, 0, 1] ⨯₃ h
/-- _orb_elements.py:75 -/
noncomputable def right_ascension (N : Vec) : ℝ := atan2 (N 1) (N 0)
/-- _orb_elements.py:96 -/
noncomputable def argument_of_periapsis (N e : Vec) : ℝ := atan2 (len (N ⨯₃ e)) (N ⬝ᵥ e)

/-- _rot_mat.py:18-22 -/
noncomputable def Rx (θ : ℝ) : Matrix (Fin 3) (Fin 3) ℝ :=
  !![1, 0, 0; 0, Real.cos θ, -Real.sin θ; 0, Real.sin θ, Real.cos θ]
/-- _rot_mat.py:75-79 -/
noncomputable def Ry (θ : ℝ) : Matrix (Fin 3) (Fin 3) ℝ :=
  !![Real.cos θ, 0, Real.sin θ; 0, 1, 0; -Real.sin θ, 0, Real.cos θ]
/-- _rot_mat.py:132-136 -/
noncomputable def Rz (θ : ℝ) : Matrix (Fin 3) (Fin 3) ℝ :=
  !![Real.cos θ, -Real.sin θ, 0; Real.sin θ, Real.cos θ, 0; 0, 0, 1]

/-- _orb_elements.py:219 -/
noncomputable def r_pf (p e f : ℝ) : Vec := (p / (1 + e * Real.cos f)) • ![Real.cos f, Real.sin f, 0]
/-- _orb_elements.py:220 -/
noncomputable def v_pf (p e f μ : ℝ) : Vec := √(μ / p) • ![-Real.sin f, e + Real.cos f, 0]
/-- _orb_elements.py:211-212 -/
noncomputable def coe2rv (p e i Ω ω f μ : ℝ) : Vec × Vec :=
  ((Rz (-Ω) * Rx (-i) * Rz (-ω)) *ᵥ r_pf p e f, (Rz (-Ω) * Rx (-i) * Rz (-ω)) *ᵥ v_pf p e f μ)

/-! ## gravity/_general.py, events/radius.py -/

/-- _general.py:24 -/
noncomputable def point_mass (r : Vec) (μ : ℝ) : Vec := -(μ / len r ^ 3) • r
/-- _general.py:62-64 -/
noncomputable def j2 (q : Vec) (μ J2 R : ℝ) : Vec :=
  let r := len q; let z := q 2
  ![-(3 / 2) * (μ * J2 * R ^ 2 / r ^ 5) * q 0 * (1 - 5 * (z ^ 2 / r ^ 2)),
    -(3 / 2) * (μ * J2 * R ^ 2 / r ^ 5) * q 1 * (1 - 5 * (z ^ 2 / r ^ 2)),
    -(3 / 2) * (μ * J2 * R ^ 2 / r ^ 5) * z * (3 - 5 * (z ^ 2 / r ^ 2))]
/-- _general.py:112-117 -/
noncomputable def j3 (q : Vec) (μ J3 R : ℝ) : Vec :=
  let r := len q; let z := q 2
  ![-(5 / 2) * (μ * J3 * R ^ 3 / r ^ 7) * q 0 * (3 * z - 7 * z ^ 3 / r ^ 2),
    -(5 / 2) * (μ * J3 * R ^ 3 / r ^ 7) * q 1 * (3 * z - 7 * z ^ 3 / r ^ 2),
    -(5 / 2) * (μ * J3 * R ^ 3 / r ^ 7) * (6 * z ^ 2 - 7 * z ^ 4 / r ^ 2 - 3 / 5 * r ^ 2)]
/-- _general.py:165-170 -/
noncomputable def j4 (q : Vec) (μ J4 R : ℝ) : Vec :=
  let r := len q; let z := q 2
  ![15 / 8 * (μ * J4 * R ^ 4 / r ^ 7) * q 0 * (1 - 14 * z ^ 2 / r ^ 2 + 21 * z ^ 4 / r ^ 4),
    15 / 8 * (μ * J4 * R ^ 4 / r ^ 7) * q 1 * (1 - 14 * z ^ 2 / r ^ 2 + 21 * z ^ 4 / r ^ 4),
    15 / 8 * (μ * J4 * R ^ 4 / r ^ 7) * z * (5 - 70 * z ^ 2 / (3 * r ^ 2) + 21 * z ^ 4 / r ^ 4)]
/-- radius.py:26 -/
noncomputable def radius_islow (r : Vec) (rmin : ℝ) : ℝ := len r - rmin

/-! ## _path_check.py -/

/-- :30, :34 -/
noncomputable def nmax (rp r1 r2 T μ : ℝ) : ℤ :=
  ⌊T / (2 * Real.pi) * √(μ / (1 / 2 * (max r1 r2 + rp)) ^ 3)⌋
/-- :72 -/
def short_way (r1 v1 r2 : Vec) : Prop := 0 < (r1 ⨯₃ v1) ⬝ᵥ (r1 ⨯₃ r2)
/-- :106, :110, :115 -/
def pass_perigee (r1 v1 r2 : Vec) (μ : ℝ) : Prop :=
  (0 < (r1 ⨯₃ r2) ⬝ᵥ (r1 ⨯₃ eccentricity_vector r1 v1 μ) ∧ 0 < (r1 ⨯₃ r2) ⬝ᵥ (eccentricity_vector r1 v1 μ ⨯₃ r2))
    ↔ short_way r1 v1 r2

/-! ## _kepler.py, _state_trans.py -/

/-- _kepler.py:36-37 -/
def lagrange_prop (r0 v0 : Vec) (F G Ft Gt : ℝ) : Vec × Vec := (F • r0 + G • v0, Ft • r0 + Gt • v0)
/-- _state_trans.py:36 -/
noncomputable def C (χ U2 U4 U5 Δt μ : ℝ) : ℝ := (3 * U5 - χ * U4 - √μ * Δt * U2) / √μ
/-- _state_trans.py:73-76 -/
noncomputable def prpr0 (r v r0 v0 : Vec) (F C μ : ℝ) : Matrix (Fin 3) (Fin 3) ℝ :=
  (len r / μ) • op (v - v0) (v - v0) + ((1 - F) / len r0 ^ 2) • op r r0 + (C / len r0 ^ 3) • op v r0 + F • 1
/-- _state_trans.py:121-123 -/
noncomputable def prpv0 (r v r0 v0 : Vec) (F G C μ : ℝ) : Matrix (Fin 3) (Fin 3) ℝ :=
  (len r0 / μ * (1 - F)) • (op (r - r0) v0 - op (v - v0) r0) + (C / μ) • op v v0 + G • 1
/-- _state_trans.py:168-174 -/
noncomputable def pvpr0 (r v r0 v0 : Vec) (Ft C μ : ℝ) : Matrix (Fin 3) (Fin 3) ℝ :=
  -((1 / len r0 ^ 2) • op (v - v0) r0) - (1 / len r ^ 2) • op r (v - v0)
    + Ft • (1 - (1 / len r ^ 2) • op r r + (1 / (μ * len r)) • op ((op r v - op v r) *ᵥ r) (v - v0))
    - (μ * C / (len r ^ 2 * len r0 ^ 2)) • op r r0
/-- _state_trans.py:228-230 -/
noncomputable def pvpv0 (r v r0 v0 : Vec) (F Gt C μ : ℝ) : Matrix (Fin 3) (Fin 3) ℝ :=
  (len r0 / μ) • op (v - v0) (v - v0) + (1 / len r0 ^ 3) • ((len r0 * (1 - F)) • op r r0 - C • op r v0) + Gt • 1

end Adx.Spec.Doc
