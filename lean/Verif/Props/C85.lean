import Verif.Lemmas.RealVec
import Verif.Model.Defaults
import Verif.Model.CowellBack
import Verif.Model.OrbElements
import Verif.Model.PathCheck
import Verif.Model.StateTrans
import Verif.Model.Kepler
import Verif.Model.NDVec
import Mathlib.Analysis.Real.Pi.Bounds

/-! # C85: omitted arguments

What each function computes when its optional arguments are left out: canonical units (`mu = 1`), the unit circular orbit
at periapsis, no perturbation, `tol = 1e-6`, the iteration and step limits. `deltat` of the transition matrix is the odd one
out: left out it is `3.14`, not zero. -/

namespace Adx
open V3

/-- Orbit integrals in canonical units. -/
theorem C85_orb_integrals (a T r v h : ℝ) (x y : V3 ℝ) :
    orb_period a = 2 * Real.pi * √(a ^ 3)
    ∧ a_from_period T ^ 3 = (T / (2 * Real.pi)) ^ 2
    ∧ semimajor_axis r v = 1 / (2 / r - v ^ 2)
    ∧ eccentricity_vector x y = (dot y y - 1 / norm x) • x - (dot x y) • y
    ∧ semiparameter h = h ^ 2
    ∧ sigma_fn x y = dot x y := by
  refine ⟨by simp [orb_period], ?_, by simp [semimajor_axis], ?_, by simp [semiparameter], by simp [sigma_fn]⟩
  · simp only [a_from_period]
    have : ∀ z : ℝ, JFun.cbrt z ^ 3 = z := realCbrt_pow_three
    rw [this]; simp; field_simp; try norm_num
  · ext <;> simp [eccentricity_vector, angular_momentum, V3.cross, V3.dot] <;> ring

/-- The anomalies: `mu = 1`, the equations at mean anomaly zero, and the universal equation of the unit circular orbit is
`χ = 0`. -/
theorem C85_kepler_equations (E e H a dt x s s0 : ℝ) :
    kepler_equ_elps E e = E - e * Real.sin E
    ∧ kepler_equ_hypb H e = e * Real.sinh H - H
    ∧ mean_anomaly_elps a dt = √(1 / a ^ 3) * dt
    ∧ mean_anomaly_hypb a dt = √(1 / -(a ^ 3)) * dt
    ∧ kepler_equ_uni x = x
    ∧ generalized_anomaly a s s0 = s - s0
    ∧ generalized_anomaly a s s0 dt = a * dt + s - s0 := by
  refine ⟨by simp [kepler_equ_elps], by simp [kepler_equ_hypb], by simp [mean_anomaly_elps], by simp [mean_anomaly_hypb],
    ?_, ?_, ?_⟩
  · simp [kepler_equ_uni, ufunc1, ufunc2, ufunc3]
  · simp [generalized_anomaly]
  · simp [generalized_anomaly]

section
variable {α : Type} [Add α] [Sub α] [Neg α] [Mul α] [Div α] [Pow α ℕ] [NatCast α] [JFun α]

/-- The solvers, over any arithmetic: tolerance `1e-6`, 20 steps for the ellipse and 50 for the others, `mu = 1`. -/
theorem C85_solvers (M N e dt al r0 s0 : α) (ts : List α) (r v : V3 α) :
    solve_kepler_elps M e = solve_kepler_elps M e (Nat.cast 1 / Nat.cast 1000000) 20
    ∧ solve_kepler_hypb N e = solve_kepler_hypb N e (Nat.cast 1 / Nat.cast 1000000) 50
    ∧ solve_kepler_uni dt al r0 s0 = solve_kepler_uni dt al r0 s0 (Nat.cast 1) (Nat.cast 1 / Nat.cast 1000000) 50
    ∧ kepler ts r v = kepler ts r v (Nat.cast 1) := ⟨rfl, rfl, rfl, rfl⟩

/-- Elements and states, over any arithmetic: `mu = 1`. -/
theorem C85_elements (r v : V3 α) (p e i o w f : α) :
    rv2coe r v = rv2coe r v (Nat.cast 1) ∧ coe2rv p e i o w f = coe2rv p e i o w f (Nat.cast 1) := ⟨rfl, rfl⟩

/-- The same for arrays. -/
theorem C85_arrays (r v p e i o w f : Arr α) :
    eccentricity_vectorA r v = eccentricity_vectorA r v (Nat.cast 1) ∧ sigma_fnA r v = sigma_fnA r v (Nat.cast 1)
    ∧ rv2coeA r v = rv2coeA r v (Nat.cast 1) ∧ coe2rvA p e i o w f = coe2rvA p e i o w f (Nat.cast 1) :=
  ⟨rfl, rfl, rfl, rfl⟩

omit [Pow α ℕ] in
/-- The propagators: no first step, at most 4096 steps, `args = {"mu": 1.0}` and no event; `custom_steps` has no limit. -/
theorem C85_propagators {Y σ γ : Type} [Add Y] [Neg Y] [SMul α Y] (ctol : α) (f : α → Y → Args α → Except PyErr Y)
    (x : Y) (t1 dt : α) (sv : SaveAt α) (ts : List α) (s : Solver α Y σ) (c : Controller α Y γ) :
    let o : OrbDynx α Y := { terms := f }
    (o.args "mu" = some (Nat.cast 1) ∧ (∀ k, k ≠ "mu" → o.args k = none) ∧ o.event = none)
    ∧ cowell_method_any ctol o x t1 sv s c = cowell_method_any ctol o x t1 sv s c none (some 4096)
    ∧ cowell_method ctol o x t1 sv s c = cowell_method ctol o x t1 sv s c none (some 4096)
    ∧ fixed_steps_any ctol o x t1 dt s = fixed_steps_any ctol o x t1 dt s (some 4096)
    ∧ fixed_steps ctol o x t1 dt s = fixed_steps ctol o x t1 dt s (some 4096)
    ∧ adaptive_steps_any ctol o x t1 s c = adaptive_steps_any ctol o x t1 s c (some 4096)
    ∧ adaptive_steps ctol o x t1 s c = adaptive_steps ctol o x t1 s c (some 4096)
    ∧ custom_steps_any ctol o x t1 ts s c = cowell_method_any ctol o x t1 { ts := ts } s c none none
    ∧ to_final_any ctol o x t1 s c = cowell_method_any ctol o x t1 { t1 := true } s c none (some 4096) := by
  refine ⟨⟨rfl, fun k hk => by simp [defaultArgs, hk], rfl⟩, rfl, rfl, rfl, rfl, rfl, rfl, rfl, rfl⟩

end

/-- Lagrange coefficients seen from the unit circular orbit. -/
theorem C85_lagrange (U1 U2 r : ℝ) :
    lagrange_F U2 = 1 - U2 ∧ lagrange_G U1 U2 = U1 ∧ lagrange_Ft U1 r = -U1 / r := by
  refine ⟨by simp [lagrange_F], by simp [lagrange_G], by simp [lagrange_Ft]; ring⟩

/-- Path checks: `mu = 1`; half the period of the unit circle fits no revolution above radius `0.97`. -/
theorem C85_path_check (r v w : V3 ℝ) (rmin : ℝ) :
    nmax_by_periapsis (α := ℝ) = 0
    ∧ nmax_by_periapsis (α := ℝ) = nmax_by_periapsis (97 / 100) 1 1 Real.pi 1
    ∧ (pass_perigee r v w ↔ pass_perigee r v w 1) ∧ (rp_islower_rmin rmin r v ↔ rp_islower_rmin rmin r v 1) := by
  refine ⟨?_, by simp, by simp, by simp⟩
  simp only [nmax_by_periapsis]
  change ((⌊Real.pi / (((2 : ℕ) : ℝ) * Real.pi) * √((((1 : ℕ) : ℝ)) / (((1 : ℕ) : ℝ) / ((2 : ℕ) : ℝ)
    * (max ((1 : ℕ) : ℝ) ((1 : ℕ) : ℝ) + ((97 : ℕ) : ℝ) / ((100 : ℕ) : ℝ))) ^ 3)⌋ : ℤ) : ℝ) = 0
  have hp := Real.pi_pos
  have e : Real.pi / (((2 : ℕ) : ℝ) * Real.pi) = 1 / 2 := by push_cast; field_simp
  rw [e]
  have : √((((1 : ℕ) : ℝ)) / (((1 : ℕ) : ℝ) / ((2 : ℕ) : ℝ) * (max ((1 : ℕ) : ℝ) ((1 : ℕ) : ℝ)
      + ((97 : ℕ) : ℝ) / ((100 : ℕ) : ℝ))) ^ 3) < 2 := by
    rw [Real.sqrt_lt' (by norm_num)]; norm_num
  have h0 := Real.sqrt_nonneg ((((1 : ℕ) : ℝ)) / (((1 : ℕ) : ℝ) / ((2 : ℕ) : ℝ) * (max ((1 : ℕ) : ℝ) ((1 : ℕ) : ℝ)
      + ((97 : ℕ) : ℝ) / ((100 : ℕ) : ℝ))) ^ 3)
  rw [Int.floor_eq_zero_iff.mpr ⟨by linarith, by linarith⟩, Int.cast_zero]

/-- Without `args` the point mass has `mu = 1` and the zonal terms vanish. (At the
origin the code returns NaN; exact arithmetic does not show it.) -/
theorem C85_gravity (t : ℝ) (x : State ℝ) (_h : x.pos ≠ ⟨0, 0, 0⟩) :
    point_mass_grav0 t x = .ok ((-(1 / norm x.pos ^ 3)) • x.pos)
    ∧ j2_acc0 t x = .ok ⟨0, 0, 0⟩ ∧ j3_acc0 t x = .ok ⟨0, 0, 0⟩ ∧ j4_acc0 t x = .ok ⟨0, 0, 0⟩ := by
  refine ⟨?_, ?_, ?_, ?_⟩
  · simp [point_mass_grav0, point_mass_grav, Args.get, defaultArgs, bind, Except.bind, pure, Except.pure]
    ext <;> simp
  · simp [j2_acc0, j2_acc, Args.get, zonalDefaults, bind, Except.bind, pure, Except.pure]
  · simp [j3_acc0, j3_acc, Args.get, zonalDefaults, bind, Except.bind, pure, Except.pure]
  · simp [j4_acc0, j4_acc, Args.get, zonalDefaults, bind, Except.bind, pure, Except.pure]

/-- The default dictionaries key by key. The values of `mu` and `R_eq` do not show in the zonal accelerations, which vanish. -/
theorem C85_dictionaries (k : String) :
    (defaultArgs k = if k = "mu" then some (1 : ℝ) else none)
    ∧ (rminDefaults k = if k = "rmin" then some (0 : ℝ) else none)
    ∧ ∀ J ∈ ["J2", "J3", "J4"], zonalDefaults J "mu" = some (1 : ℝ) ∧ zonalDefaults J J = some (0 : ℝ)
      ∧ zonalDefaults J "R_eq" = some (1 : ℝ) ∧ (k ∉ ["mu", J, "R_eq"] → zonalDefaults (α := ℝ) J k = none) := by
  refine ⟨by simp [defaultArgs], by simp [rminDefaults], fun J hJ => ?_⟩
  simp only [List.mem_cons, List.not_mem_nil, or_false] at hJ
  rcases hJ with rfl | rfl | rfl <;>
    exact ⟨by simp [zonalDefaults], by simp [zonalDefaults], by simp [zonalDefaults], by simp +contextual [zonalDefaults]⟩

/-- The event without `args` is the radius, so it never becomes negative. -/
theorem C85_radius_islow (t : ℝ) (x : State ℝ) : radius_islow0 t x = .ok (norm x.pos) ∧ 0 ≤ norm x.pos := by
  refine ⟨?_, V3.norm_nonneg _⟩
  simp [radius_islow0, radius_islow, Args.get, rminDefaults, bind, Except.bind, pure, Except.pure]

/-- Transition matrix: `mu = 1`, but `deltat = 3.14`. -/
theorem C85_state_trans (x U2 U4 U5 F G Ft Gt C : ℝ) (r v r0 v0 : V3 ℝ) :
    C_func x U2 U4 U5 = 3 * U5 - x * U4 - 3.14 * U2
    ∧ dxdx0 r v r0 v0 = dxdx0 r v r0 v0 3.14 1
    ∧ prpr0 r v r0 v0 F C = prpr0 r v r0 v0 F C 1 ∧ prpv0 r v r0 v0 F G C = prpv0 r v r0 v0 F G C 1
    ∧ pvpr0 r v r0 v0 Ft C = pvpr0 r v r0 v0 Ft C 1 ∧ pvpv0 r v r0 v0 F Gt C = pvpv0 r v r0 v0 F Gt C 1 := by
  refine ⟨by simp [C_func]; norm_num, ?_, by simp, by simp, by simp, by simp⟩
  have : (((314 : ℕ) : ℝ) / ((100 : ℕ) : ℝ)) = 3.14 := by norm_num
  simp only [this, Nat.cast_one]

/-- So leaving `deltat` out of `dxdx0` at the starting state itself does not give the identity. -/
theorem C85_dxdx0_refuted : ∃ r v : V3 ℝ, r ≠ ⟨0, 0, 0⟩ ∧ (dxdx0 r v r v).rr ≠ M3.eye
    ∧ (dxdx0 r v r v 0).rr = M3.eye := by
  have n : norm (⟨1, 0, 0⟩ : V3 ℝ) = 1 := by simp [V3.norm, V3.dot]
  have n' : norm (⟨0, 1, 0⟩ : V3 ℝ) = 1 := by simp [V3.norm, V3.dot]
  have a1 : (2 : ℝ) - 1 = 1 := by norm_num
  refine ⟨⟨1, 0, 0⟩, ⟨0, 1, 0⟩, by simp [V3.ext_iff], fun h => ?_, ?_⟩
  · have h2 := congrArg (fun m => m.r2.z) h
    have hc : Real.cos (314 / 100) < 0 :=
      Real.cos_neg_of_pi_div_two_lt_of_lt (by linarith [Real.pi_lt_d2]) (by linarith [Real.pi_gt_three])
    simp [dxdx0, prpr0, M3.eye, n, n', semimajor_axis, generalized_anomaly, sigma_fn, V3.dot, lagrange_F, ufunc2,
      M3.outer, a1] at h2
    linarith
  · ext <;> simp [dxdx0, prpr0, M3.eye, n, n', semimajor_axis, generalized_anomaly, sigma_fn, V3.dot, lagrange_F, ufunc2,
      M3.outer, a1, C_func, ufunc4, ufunc5]

end Adx
