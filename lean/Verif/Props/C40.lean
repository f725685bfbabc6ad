import Verif.Model.Gravity
import Verif.Lemmas.Calculus

/-! # C40: the accelerations are gradients of the geopotential terms -/

namespace Adx
open V3 Spec

variable {t mu J R : ℝ} {x : State ℝ} {args : Args ℝ}

theorem legendre2 (u : ℝ) : legendre 2 u = (3 * u ^ 2 - 1) / 2 := by
  simp [legendre]; ring
theorem legendre3 (u : ℝ) : legendre 3 u = (5 * u ^ 3 - 3 * u) / 2 := by
  simp [legendre]; ring
theorem legendre4 (u : ℝ) : legendre 4 u = (35 * u ^ 4 - 30 * u ^ 2 + 3) / 8 := by
  simp [legendre]; ring

/-- C40: `point_mass_grav` is the gradient of `mu / r`. -/
theorem C40_point_mass (hx : x.pos ≠ ⟨0, 0, 0⟩) (hm : args "mu" = some mu) :
    ∃ a, point_mass_grav t x args = .ok a ∧ IsGradientAt (centralPotential mu) a x.pos := by
  refine ⟨_, by simp only [point_mass_grav, Args.get, hm, bind, Except.bind, pure, Except.pure]; rfl, ?_⟩
  intro c c' s hc hd
  have hn : V3.norm (c s) ≠ 0 := by rw [hc]; exact ((norm_pos _).2 hx).ne'
  have h := (hd.norm hn).fun_inv hn
  simp only [centralPotential, radius_eq_norm, div_eq_mul_inv]
  refine (h.const_mul mu).congr_deriv ?_
  simp only [hc, V3.dot] at *
  field_simp
  ring

/-- C40: `j2_acc` is the gradient of the degree-2 zonal potential. -/
theorem C40_j2 (hx : x.pos ≠ ⟨0, 0, 0⟩) (hm : args "mu" = some mu) (hJ : args "J2" = some J)
    (hR : args "R_eq" = some R) :
    ∃ a, j2_acc t x args = .ok a ∧ IsGradientAt (zonalPotential 2 mu J R) a x.pos := by
  refine ⟨_, by simp only [j2_acc, Args.get, hm, hJ, hR, bind, Except.bind, pure, Except.pure]; rfl, ?_⟩
  intro c c' s hc hd
  have hn : V3.norm (c s) ≠ 0 := by rw [hc]; exact ((norm_pos _).2 hx).ne'
  have h := (hd.norm hn).fun_inv hn
  have hz := hd.z
  have key := (h.fun_pow 3).fun_mul (((((h.fun_mul hz).fun_pow 2).const_mul 3).sub_const 1))
  have hV : (fun s => zonalPotential 2 mu J R (c s)) = fun s => -(mu * J * R ^ 2 / 2) *
      ((V3.norm (c s))⁻¹ ^ 3 * (3 * ((V3.norm (c s))⁻¹ * (c s).z) ^ 2 - 1)) := by
    funext s
    simp only [zonalPotential, radius_eq_norm, legendre2, div_eq_mul_inv]; ring
  rw [hV]
  refine (key.const_mul _).congr_deriv ?_
  simp only [hc, V3.dot] at *
  push_cast
  field_simp
  ring

/-- C40: `j3_acc` is the gradient of the degree-3 zonal potential. -/
theorem C40_j3 (hx : x.pos ≠ ⟨0, 0, 0⟩) (hm : args "mu" = some mu) (hJ : args "J3" = some J)
    (hR : args "R_eq" = some R) :
    ∃ a, j3_acc t x args = .ok a ∧ IsGradientAt (zonalPotential 3 mu J R) a x.pos := by
  refine ⟨_, by simp only [j3_acc, Args.get, hm, hJ, hR, bind, Except.bind, pure, Except.pure]; rfl, ?_⟩
  intro c c' s hc hd
  have hn : V3.norm (c s) ≠ 0 := by rw [hc]; exact ((norm_pos _).2 hx).ne'
  have h := (hd.norm hn).fun_inv hn
  have hz := hd.z
  have key := (h.fun_pow 4).fun_mul ((((h.fun_mul hz).fun_pow 3).const_mul 5).fun_sub
    ((h.fun_mul hz).const_mul 3))
  have hV : (fun s => zonalPotential 3 mu J R (c s)) = fun s => -(mu * J * R ^ 3 / 2) *
      ((V3.norm (c s))⁻¹ ^ 4 * (5 * ((V3.norm (c s))⁻¹ * (c s).z) ^ 3
        - 3 * ((V3.norm (c s))⁻¹ * (c s).z))) := by
    funext s
    simp only [zonalPotential, radius_eq_norm, legendre3, div_eq_mul_inv]; ring
  rw [hV]
  refine (key.const_mul _).congr_deriv ?_
  simp only [hc, V3.dot] at *
  push_cast
  field_simp
  ring

/-- C40: `j4_acc` is the gradient of the degree-4 zonal potential. -/
theorem C40_j4 (hx : x.pos ≠ ⟨0, 0, 0⟩) (hm : args "mu" = some mu) (hJ : args "J4" = some J)
    (hR : args "R_eq" = some R) :
    ∃ a, j4_acc t x args = .ok a ∧ IsGradientAt (zonalPotential 4 mu J R) a x.pos := by
  refine ⟨_, by simp only [j4_acc, Args.get, hm, hJ, hR, bind, Except.bind, pure, Except.pure]; rfl, ?_⟩
  intro c c' s hc hd
  have hn : V3.norm (c s) ≠ 0 := by rw [hc]; exact ((norm_pos _).2 hx).ne'
  have h := (hd.norm hn).fun_inv hn
  have hz := hd.z
  have key := (h.fun_pow 5).fun_mul (((((h.fun_mul hz).fun_pow 4).const_mul 35).fun_sub
    (((h.fun_mul hz).fun_pow 2).const_mul 30)).add_const 3)
  have hV : (fun s => zonalPotential 4 mu J R (c s)) = fun s => -(mu * J * R ^ 4 / 8) *
      ((V3.norm (c s))⁻¹ ^ 5 * (35 * ((V3.norm (c s))⁻¹ * (c s).z) ^ 4
        - 30 * ((V3.norm (c s))⁻¹ * (c s).z) ^ 2 + 3)) := by
    funext s
    simp only [zonalPotential, radius_eq_norm, legendre4, div_eq_mul_inv]; ring
  rw [hV]
  refine (key.const_mul _).congr_deriv ?_
  simp only [hc, V3.dot] at *
  push_cast
  field_simp
  ring

/-- Non-vacuity: at (1,0,0) with mu = R = 1 and J2 = 2 the degree-2 acceleration is `(-3, 0, 0)`. -/
example : j2_acc (0 : ℝ) ⟨⟨1, 0, 0⟩, []⟩ (fun k => if k = "J2" then some 2 else some 1)
    = .ok ⟨-3, 0, 0⟩ := by
  simp [j2_acc, Args.get, bind, Except.bind, pure, Except.pure, V3.norm, V3.dot]

end Adx
