import Verif.Props.C71

/-!
# C71 — NaN in the remaining arguments

`alpha` of the universal functions and of `kepler_equ_uni`, `mu` of `rv2coe` and of the path checks, the constants of the
accelerations and of the radius event.
-/

namespace Adx
open XR

/-- A NaN `alpha` takes the parabolic branch: every universal function has its value at `alpha = 0`, whatever `chi`. -/
theorem C71_ufunc_alpha (chi : XR) :
    ufunc0 chi nan = fin 1 ∧ ufunc1 chi nan = chi ∧ ufunc2 chi nan = chi ^ 2 / ℓ 2 ∧ ufunc3 chi nan = chi ^ 3 / ℓ 6 ∧
    ufunc4 chi nan = chi ^ 4 / ℓ 24 ∧ ufunc5 chi nan = chi ^ 5 / ℓ 120 := by
  refine ⟨?_, ?_, ?_, ?_, ?_, ?_⟩ <;> simp [ufunc0, ufunc1, ufunc2, ufunc3, ufunc4, ufunc5]

/-- So a NaN `alpha` is swallowed by `kepler_equ_uni` as well: the residual is that of a parabola. -/
theorem C71_kepler_equ_uni_alpha (chi r0 sigma0 dt mu : XR) :
    kepler_equ_uni chi nan r0 sigma0 dt mu = kepler_equ_uni chi (fin 0) r0 sigma0 dt mu := by
  simp [kepler_equ_uni, ufunc1, ufunc2, ufunc3]

/-- Concretely: at `chi = 1` with unit distance the residual is the finite number `7/6 - 1`. -/
theorem C71_kepler_equ_uni_refuted : kepler_equ_uni (fin 1) nan (fin 1) (fin 0) (fin 1) (fin 1) = fin (1 / 6) := by
  rw [C71_kepler_equ_uni_alpha]
  simp only [kepler_equ_uni, ufunc1, ufunc2, ufunc3, cast_fin, fin_pow, fin_div_lit, XR.lt_fin]
  simp [sqrt_fin]

/-- A NaN `mu` makes four of the six elements NaN; inclination and right ascension of the node do not depend on `mu`. -/
theorem C71_rv2coe_mu (r v : V3 XR) (mu : XR) :
    rv2coe r v nan = ⟨nan, nan, (rv2coe r v mu).incl, (rv2coe r v mu).raan, nan, nan⟩ := by
  have h2 := (C71_vectors_mu r v).1
  have he : V3.norm nanVec = nan := norm_nan (Or.inl rfl)
  have hc1 : V3.norm (V3.cross nanVec r) = nan := norm_nan (cross_nan_left (Or.inl rfl)).has
  have hc2 : V3.norm (V3.cross (node_vec (angular_momentum r v)) nanVec) = nan :=
    norm_nan (cross_nan_right (Or.inl rfl)).has
  simp [rv2coe, h2, he, semiparameter, argument_of_periapsis, true_anomaly, hc1, hc2, wrapNeg]

/-- The accelerations and the radius event: a NaN in any of the constants they read makes the whole result NaN. -/
theorem C71_gravity_args (t : XR) (x : State XR) (args : Args XR) :
    (args "mu" = some nan → ∀ a, point_mass_grav t x args = .ok a → a = nanVec) ∧
    ((args "mu" = some nan ∨ args "J2" = some nan ∨ args "R_eq" = some nan) → ∀ a, j2_acc t x args = .ok a → a = nanVec) ∧
    ((args "mu" = some nan ∨ args "J3" = some nan ∨ args "R_eq" = some nan) → ∀ a, j3_acc t x args = .ok a → a = nanVec) ∧
    ((args "mu" = some nan ∨ args "J4" = some nan ∨ args "R_eq" = some nan) → ∀ a, j4_acc t x args = .ok a → a = nanVec) ∧
    (args "rmin" = some nan → radius_islow t x args = .ok nan) := by
  refine ⟨?_, ?_, ?_, ?_, ?_⟩
  · intro h a ha
    rw [point_mass_grav, Args.get, h] at ha
    injection ha with ha; rw [← ha]; simp [nanVec]
  · intro h a ha
    rw [j2_acc, Args.get, Args.get, Args.get] at ha
    rcases h1 : args "mu" with _ | mu <;> rcases h2 : args "J2" with _ | J <;> rcases h3 : args "R_eq" with _ | R <;>
      rw [h1, h2, h3] at ha <;> first | cases ha; done | skip
    rw [h1, h2, h3] at h
    injection ha with ha; rw [← ha]
    rcases h with h | h | h <;> (injection h with h; subst h; simp [nanVec])
  · intro h a ha
    rw [j3_acc, Args.get, Args.get, Args.get] at ha
    rcases h1 : args "mu" with _ | mu <;> rcases h2 : args "J3" with _ | J <;> rcases h3 : args "R_eq" with _ | R <;>
      rw [h1, h2, h3] at ha <;> first | cases ha; done | skip
    rw [h1, h2, h3] at h
    injection ha with ha; rw [← ha]
    rcases h with h | h | h <;> (injection h with h; subst h; simp [nanVec])
  · intro h a ha
    rw [j4_acc, Args.get, Args.get, Args.get] at ha
    rcases h1 : args "mu" with _ | mu <;> rcases h2 : args "J4" with _ | J <;> rcases h3 : args "R_eq" with _ | R <;>
      rw [h1, h2, h3] at ha <;> first | cases ha; done | skip
    rw [h1, h2, h3] at h
    injection ha with ha; rw [← ha]
    rcases h with h | h | h <;> (injection h with h; subst h; simp [nanVec])
  · intro h
    rw [radius_islow, Args.get, h]
    show Except.ok (V3.norm x.pos - nan) = _
    simp

example : ∃ args : Args XR, args "mu" = some (fin 1) ∧ args "J2" = some nan ∧ args "R_eq" = some (fin 1) ∧
    j2_acc (fin 0) ⟨⟨fin 1, fin 0, fin 0⟩, []⟩ args = .ok nanVec := by
  refine ⟨fun k => if k = "J2" then some nan else some (fin 1), by simp, by simp, by simp, ?_⟩
  have h := (C71_gravity_args (fin 0) ⟨⟨fin 1, fin 0, fin 0⟩, []⟩
    (fun k => if k = "J2" then some nan else some (fin 1))).2.1 (Or.inr (Or.inl (by simp)))
  exact congrArg Except.ok (h _ rfl)

/-- The path checks with a NaN `rmin` or `mu`: `rp_islower_rmin` answers no; `pass_perigee` with a NaN `mu` answers the
opposite of `is_short_way`, wherever the periapsis is. -/
theorem C71_path_check_args (r v r2 : V3 XR) (rmin mu : XR) :
    rp_islower_rmin nan r v mu = false ∧ rp_islower_rmin rmin r v nan = false ∧
    pass_perigee r v r2 nan = !is_short_way r v r2 := by
  refine ⟨?_, ?_, ?_⟩
  · simp [rp_islower_rmin]
  · simp [rp_islower_rmin, semiparameter, radius_periapsis]
  · have hc : V3.dot (V3.cross r r2) (V3.cross r nanVec) = nan := dot_nan_right (cross_nan_right (Or.inl rfl)).has
    simp [pass_perigee, (C71_vectors_mu r v).1, hc]

end Adx
