import Verif.Props.C57
import Verif.Props.C54
import Verif.Lemmas.Angle

/-! # C57, continued: state functions, the solver and `kepler` -/

namespace Adx
open Spec V3

variable (u : Units)

theorem units_rad (χ α r0 σ0 : ℝ) :
    radU (α / u.L) (u.L * r0) (Real.sqrt u.L * σ0) (Real.sqrt u.L * χ) = u.L * radU α r0 σ0 χ := by
  have := units_dchi u χ α r0 σ0
  simpa only [dchi_eq] using this

/-- One step of the propagation, in the new units. -/
theorem units_step (r v : V3 ℝ) (mu χ : ℝ) :
    stepOf (u.pos r) (u.vel v) (u.grav mu) (Real.sqrt u.L * χ)
      = (u.pos (stepOf r v mu χ).1, u.vel (stepOf r v mu χ).2) := by
  have hL := u.L_pos.ne'
  have hT := u.T_pos.ne'
  have hb := (Units.sqrt_pos u).ne'
  have hb2 := Units.sqrt_sq u
  simp only [stepOf, units_alpha, units_sigma, units_norm_pos, keplerStep_eq]
  have hF : cF (u.L * V3.norm r) (Real.sqrt u.L * χ) (alphaOf r v mu / u.L) = cF (V3.norm r) χ (alphaOf r v mu) := by
    rw [cF, cF, U_scale, hb2, mul_div_mul_left _ _ hL]
  have hG : cG (alphaOf r v mu / u.L) (u.L * V3.norm r) (Real.sqrt u.L * sigma_fn r v mu) (u.grav mu)
      (Real.sqrt u.L * χ) = u.T * cG (alphaOf r v mu) (V3.norm r) (sigma_fn r v mu) mu χ := by
    rw [cG, cG, U_scale, U_scale, units_sqrt_grav]
    rw [show u.L * V3.norm r * (Real.sqrt u.L ^ 1 * U 1 χ (alphaOf r v mu)) +
      Real.sqrt u.L * sigma_fn r v mu * (Real.sqrt u.L ^ 2 * U 2 χ (alphaOf r v mu))
      = Real.sqrt u.L ^ 3 * (V3.norm r * U 1 χ (alphaOf r v mu) + sigma_fn r v mu * U 2 χ (alphaOf r v mu)) by
        linear_combination (-Real.sqrt u.L * V3.norm r * U 1 χ (alphaOf r v mu)) * hb2]
    rw [show Real.sqrt u.L ^ 3 / u.T * Real.sqrt mu = Real.sqrt u.L ^ 3 * (Real.sqrt mu / u.T) by ring,
      mul_div_mul_left _ _ (pow_ne_zero 3 hb), div_div_eq_mul_div]
    ring
  have hFt : cFt (alphaOf r v mu / u.L) (u.L * V3.norm r) (Real.sqrt u.L * sigma_fn r v mu) (u.grav mu)
      (Real.sqrt u.L * χ) = cFt (alphaOf r v mu) (V3.norm r) (sigma_fn r v mu) mu χ / u.T := by
    rw [cFt, cFt, U_scale, units_rad, units_sqrt_grav]
    rw [show -(Real.sqrt u.L ^ 3 / u.T * Real.sqrt mu) / (u.L * radU (alphaOf r v mu) (V3.norm r) (sigma_fn r v mu) χ) *
        (Real.sqrt u.L ^ 1 * U 1 χ (alphaOf r v mu)) / (u.L * V3.norm r)
      = (Real.sqrt u.L ^ 2) ^ 2 / u.L ^ 2 * (-Real.sqrt mu / radU (alphaOf r v mu) (V3.norm r) (sigma_fn r v mu) χ *
        U 1 χ (alphaOf r v mu) / V3.norm r / u.T) by
        simp only [div_eq_mul_inv, mul_inv]; ring]
    rw [hb2, div_self (pow_ne_zero 2 hL), one_mul]
  have hGt : cGt (alphaOf r v mu / u.L) (u.L * V3.norm r) (Real.sqrt u.L * sigma_fn r v mu)
      (Real.sqrt u.L * χ) = cGt (alphaOf r v mu) (V3.norm r) (sigma_fn r v mu) χ := by
    rw [cGt, cGt, U_scale, units_rad, hb2, mul_div_mul_left _ _ hL]
  rw [hF, hG, hFt, hGt]
  refine Prod.ext ?_ ?_
  · ext <;> simp [Units.pos, Units.vel] <;> field_simp
  · ext <;> simp [Units.pos, Units.vel] <;> field_simp

/-- C57: Lagrange coefficients and `C_func`. -/
theorem C57_lagrange (U1 U2 U4 U5 χ σ0 r0 r t mu : ℝ) :
    lagrange_F (u.L * U2) (u.L * r0) = lagrange_F U2 r0 ∧
    lagrange_G (Real.sqrt u.L * U1) (u.L * U2) (Real.sqrt u.L * σ0) (u.L * r0) (u.grav mu)
      = u.T * lagrange_G U1 U2 σ0 r0 mu ∧
    lagrange_Ft (Real.sqrt u.L * U1) (u.L * r) (u.L * r0) (u.grav mu) = lagrange_Ft U1 r r0 mu / u.T ∧
    lagrange_Gt (u.L * U2) (u.L * r) = lagrange_Gt U2 r ∧
    C_func (Real.sqrt u.L * χ) (u.L * U2) (u.L ^ 2 * U4) (Real.sqrt u.L ^ 5 * U5) (u.time t) (u.grav mu)
      = u.L * u.T * C_func χ U2 U4 U5 t mu := by
  have hL := u.L_pos.ne'
  have hT := u.T_pos.ne'
  have hb := (Units.sqrt_pos u).ne'
  have hb2 := Units.sqrt_sq u
  refine ⟨?_, ?_, ?_, ?_, ?_⟩
  · simp only [lagrange_F, mul_div_mul_left _ _ hL]
  · simp only [lagrange_G, sqrt_real, units_sqrt_grav]
    rw [show u.L * r0 * (Real.sqrt u.L * U1) + Real.sqrt u.L * σ0 * (u.L * U2)
      = Real.sqrt u.L ^ 3 * (r0 * U1 + σ0 * U2) by rw [← hb2, Real.sqrt_sq (Units.sqrt_pos u).le]; ring]
    rw [show Real.sqrt u.L ^ 3 / u.T * Real.sqrt mu = Real.sqrt u.L ^ 3 * (Real.sqrt mu / u.T) by ring,
      mul_div_mul_left _ _ (pow_ne_zero 3 hb), div_div_eq_mul_div]
    ring
  · simp only [lagrange_Ft, sqrt_real, units_sqrt_grav]
    rw [show -(Real.sqrt u.L ^ 3 / u.T * Real.sqrt mu) / (u.L * r) * (Real.sqrt u.L * U1) / (u.L * r0)
      = (Real.sqrt u.L ^ 2) ^ 2 / u.L ^ 2 * (-Real.sqrt mu / r * U1 / r0 / u.T) by
        simp only [div_eq_mul_inv, mul_inv]; ring]
    rw [hb2, div_self (pow_ne_zero 2 hL), one_mul]
  · simp only [lagrange_Gt, mul_div_mul_left _ _ hL]
  · simp only [C_func, sqrt_real, units_sqrt_grav, Units.time]
    rw [show ((3 : ℕ) : ℝ) * (Real.sqrt u.L ^ 5 * U5) - Real.sqrt u.L * χ * (u.L ^ 2 * U4) -
        Real.sqrt u.L ^ 3 / u.T * Real.sqrt mu * (u.T * t) * (u.L * U2)
        = Real.sqrt u.L ^ 3 * (u.L * (((3 : ℕ) : ℝ) * U5 - χ * U4 - Real.sqrt mu * t * U2)) by
      rw [show Real.sqrt u.L ^ 3 / u.T * Real.sqrt mu * (u.T * t) = Real.sqrt u.L ^ 3 * Real.sqrt mu * t by field_simp]
      rw [← hb2, Real.sqrt_sq (Units.sqrt_pos u).le]; ring]
    rw [show Real.sqrt u.L ^ 3 / u.T * Real.sqrt mu = Real.sqrt u.L ^ 3 * (Real.sqrt mu / u.T) by ring,
      mul_div_mul_left _ _ (pow_ne_zero 3 hb), div_div_eq_mul_div]
    ring

/-- C57: `solve_kepler_uni` commutes with a change of units if the tolerance is converted by `L ^ (3/2)`: the
same number of steps, every iterate converted. -/
theorem C57_solver (t α r0 σ0 mu tol : ℝ) (max_iter : ℕ) :
    solve_kepler_uni (u.time t) (α / u.L) (u.L * r0) (Real.sqrt u.L * σ0) (u.grav mu) (Real.sqrt u.L ^ 3 * tol) max_iter
      = (solve_kepler_uni t α r0 σ0 mu tol max_iter).map fun χ => Real.sqrt u.L * χ := by
  obtain ⟨k, -, hr, hs, -⟩ := C13_uni t α r0 σ0 mu tol max_iter
  have hT := u.T_pos.ne'
  have hb := Units.sqrt_pos u
  have hstart : uniStart (u.time t) (α / u.L) (u.grav mu) = Real.sqrt u.L * uniStart t α mu := by
    simp only [uniStart, sqrt_real, abs_real, units_sqrt_grav, Units.time, abs_div, abs_of_pos u.L_pos]
    rw [show Real.sqrt u.L ^ 3 = Real.sqrt u.L * u.L by rw [pow_succ', Units.sqrt_sq]]
    have := u.L_pos.ne'
    field_simp
  have hd : ∀ x : ℝ, dchi (Real.sqrt u.L * x) (α / u.L) (u.L * r0) (Real.sqrt u.L * σ0)
      = Real.sqrt u.L ^ 2 * dchi x α r0 σ0 := fun x => by rw [units_dchi, Units.sqrt_sq]
  obtain ⟨t', h1, h2⟩ := whileLoop_simulate
    (c2 := uniCond (u.time t) (α / u.L) (u.L * r0) (Real.sqrt u.L * σ0) (u.grav mu) (Real.sqrt u.L ^ 3 * tol) max_iter)
    (b2 := uniBody (u.time t) (α / u.L) (u.L * r0) (Real.sqrt u.L * σ0) (u.grav mu))
    (R := fun (s t : Carry ℝ) => t.1 = s.1 ∧ t.2.1 = Real.sqrt u.L * s.2.1)
    (fun s t ⟨h1, h2⟩ => by
      simp only [uniCond, abs_real, lt_real, h1, h2, units_kep, abs_mul, abs_of_pos (pow_pos hb 3),
        mul_lt_mul_iff_right₀ (pow_pos hb 3)])
    (fun s t ⟨h1, h2⟩ => by
      simp only [uniBody, h1, h2, hd, units_kep, true_and]
      rw [show Real.sqrt u.L ^ 3 * kepler_equ_uni s.2.1 α r0 σ0 _ mu
        = Real.sqrt u.L ^ 2 * (Real.sqrt u.L * kepler_equ_uni s.2.1 α r0 σ0 _ mu) by ring,
        mul_div_mul_left _ _ (pow_pos hb 2).ne']
      ring)
    (t := uniInit (u.time t) (α / u.L) (u.grav mu) (Real.sqrt u.L ^ 3 * tol))
    (by exact ⟨rfl, hstart⟩) hr
  have h3 : uniRun (u.time t) (α / u.L) (u.L * r0) (Real.sqrt u.L * σ0) (u.grav mu) (Real.sqrt u.L ^ 3 * tol) max_iter
    = some t' := h1
  simp only [solve_kepler_uni, h3, hr, Option.map_some, h2.2]

/-- C57, the part that holds for `kepler` (unit independence fails: `C57_kepler_refuted`): run in the new units it is `kepler` run in the old units with the tolerance `1e-6 / L ^ (3/2)`:
its default tolerance carries the dimension of `length ^ (3/2)`. -/
theorem C57_kepler_partial (ts : List ℝ) (r v : V3 ℝ) (mu : ℝ) :
    ∃ χ : ℝ → ℝ, (∀ t ∈ ts, solve_kepler_uni t (alphaOf r v mu) (V3.norm r) (sigma_fn r v mu) mu
        (defaultTol / Real.sqrt u.L ^ 3) 50 = some (χ t)) ∧
      kepler (ts.map u.time) (u.pos r) (u.vel v) (u.grav mu)
        = some (ts.map fun t => u.pos (stepOf r v mu (χ t)).1, ts.map fun t => u.vel (stepOf r v mu (χ t)).2) := by
  have hb := Units.sqrt_pos u
  have hex : ∀ t, ∃ χ, solve_kepler_uni t (alphaOf r v mu) (V3.norm r) (sigma_fn r v mu) mu
      (defaultTol / Real.sqrt u.L ^ 3) 50 = some χ := fun t => by
    obtain ⟨_, _, _, h, _⟩ := C13_uni t (alphaOf r v mu) (V3.norm r) (sigma_fn r v mu) mu (defaultTol / Real.sqrt u.L ^ 3) 50
    exact ⟨_, h⟩
  choose χ hs using hex
  refine ⟨χ, fun t _ => hs t, ?_⟩
  rw [kepler_eq_map]
  have hrow : ∀ t, keplerRow (u.pos r) (u.vel v) (u.grav mu) (u.time t)
      = (u.pos (stepOf r v mu (χ t)).1, u.vel (stepOf r v mu (χ t)).2) := by
    intro t
    rw [← units_step]
    have h := C57_solver u t (alphaOf r v mu) (V3.norm r) (sigma_fn r v mu) mu (defaultTol / Real.sqrt u.L ^ 3) 50
    rw [mul_div_cancel₀ _ (pow_pos hb 3).ne', hs t, solve_eq_chiOf, Option.map_some] at h
    have h' := Option.some.inj h
    simp only [keplerRow, item_real, alphaOf_cast]
    simp only [stepOf, units_alpha, units_norm_pos, units_sigma, h']
  simp only [List.map_map, Function.comp_def, hrow]

/-- C57: the exact propagation commutes with a change of units. -/
theorem C57_exact {r v : V3 ℝ} {mu : ℝ} (hmu : 0 < mu) (hh : angular_momentum r v ≠ ⟨0, 0, 0⟩) (t : ℝ) :
    exactProp (u.pos r) (u.vel v) (u.grav mu) (u.time t) = (u.pos (exactProp r v mu t).1, u.vel (exactProp r v mu t).2) := by
  have hL := u.L_pos
  have hT := u.T_pos
  have hmu' : 0 < u.grav mu := by rw [Units.grav]; positivity
  have hh' : cross (u.pos r) (u.vel v) ≠ ⟨0, 0, 0⟩ := by
    intro h
    apply hh
    have h1 : (u.L ^ 2 / u.T) • angular_momentum r v = ⟨0, 0, 0⟩ := by
      rw [← (C57_vectors u r v mu).1]; exact h
    have hk : u.L ^ 2 / u.T ≠ 0 := by positivity
    have hx := congrArg V3.x h1
    have hy := congrArg V3.y h1
    have hz := congrArg V3.z h1
    simp only [smul_x, smul_y, smul_z, mul_eq_zero, hk, false_or] at hx hy hz
    exact V3.ext hx hy hz
  have hroot : IsRoot (u.pos r) (u.vel v) (u.grav mu) (u.time t) (Real.sqrt u.L * exactChi r v mu t) := by
    rw [IsRoot, units_alpha, units_norm_pos, units_sigma, units_kep, isRoot_exactChi hmu hh t, mul_zero]
  rw [exactProp, ← exactChi_unique hmu' hh' hroot, units_step, exactProp]

/-! ### elements, accelerations, path checks, transition matrix -/

theorem wrap_scale {k : ℝ} (hk : 0 < k) (x y : ℝ) :
    wrapNeg (JFun.arctan2 (k * y) (k * x)) = wrapNeg (JFun.arctan2 y x) := by
  have h : (⟨k * x, k * y⟩ : ℂ) = (k : ℂ) * ⟨x, y⟩ := by apply Complex.ext <;> simp
  rw [arctan2_real, arctan2_real, h, Complex.arg_real_mul _ hk]

theorem dot_smul_l (k : ℝ) (a b : V3 ℝ) : V3.dot (k • a) b = k * V3.dot a b := by
  simp only [V3.dot, smul_x, smul_y, smul_z]; ring
theorem dot_smul_r (k : ℝ) (a b : V3 ℝ) : V3.dot a (k • b) = k * V3.dot a b := by
  simp only [V3.dot, smul_x, smul_y, smul_z]; ring
theorem cross_smul_l (k : ℝ) (a b : V3 ℝ) : V3.cross (k • a) b = k • V3.cross a b := by
  ext <;> simp <;> ring
theorem cross_smul_r (k : ℝ) (a b : V3 ℝ) : V3.cross a (k • b) = k • V3.cross a b := by
  ext <;> simp <;> ring

/-- C57: the classical elements: `p` is a length, the others are pure numbers. -/
theorem C57_rv2coe (r v : V3 ℝ) (mu : ℝ) :
    rv2coe (u.pos r) (u.vel v) (u.grav mu)
      = { rv2coe r v mu with p := u.L * (rv2coe r v mu).p } := by
  have hk : 0 < u.L ^ 2 / u.T := div_pos (pow_pos u.L_pos 2) u.T_pos
  obtain ⟨h1, h2, h3, -⟩ := C57_vectors u r v mu
  have hN : node_vec ((u.L ^ 2 / u.T) • angular_momentum r v) = (u.L ^ 2 / u.T) • node_vec (angular_momentum r v) :=
    cross_smul_r ..
  simp only [rv2coe, h1, h2, V3.norm_smul, abs_of_pos hk, h3, hN]
  congr 1
  · simp only [inclination, V3.norm_smul, abs_of_pos hk, smul_z, mul_div_mul_left _ _ hk.ne']
  · exact wrap_scale hk _ _
  · simp only [argument_of_periapsis, cross_smul_l, V3.norm_smul, abs_of_pos hk, dot_smul_l]
    exact wrap_scale hk _ _
  · simp only [true_anomaly, units_pos_eq, cross_smul_r, V3.norm_smul, abs_of_pos u.L_pos, dot_smul_r]
    exact wrap_scale u.L_pos _ _

/-- C57: `coe2rv`. -/
theorem C57_coe2rv (p e incl raan argp f mu : ℝ) :
    coe2rv (u.L * p) e incl raan argp f (u.grav mu)
      = (u.pos (coe2rv p e incl raan argp f mu).1, u.vel (coe2rv p e incl raan argp f mu).2) := by
  have hL := u.L_pos.ne'
  have hs : Real.sqrt (u.grav mu / (u.L * p)) = u.L / u.T * Real.sqrt (mu / p) := by
    rw [show u.grav mu / (u.L * p) = (u.L / u.T) ^ 2 * (mu / p) by
      rw [Units.grav, show u.L ^ 3 / u.T ^ 2 * mu = u.L * ((u.L / u.T) ^ 2 * mu) by ring, mul_div_mul_left _ _ hL,
        mul_div_assoc], Real.sqrt_mul (sq_nonneg _), Real.sqrt_sq (div_pos u.L_pos u.T_pos).le]
  have hm : ∀ (m : M3 ℝ) (k : ℝ) (w : V3 ℝ), M3.mulVec m (k • w) = k • M3.mulVec m w := by
    intro m k w; ext <;> simp [M3.mulVec, V3.dot] <;> ring
  have hss : ∀ (k l : ℝ) (w : V3 ℝ), (k * l) • w = k • (l • w) := by
    intro k l w; ext <;> simp <;> ring
  simp only [coe2rv, perifocalPos, perifocalVel, sqrt_real, hs, mul_div_assoc, units_pos_eq, units_vel_eq, hss, hm]

/-- C57: accelerations: in the new units they are multiplied by `L / T²`; `J_n` are pure numbers, `R_eq` is a
length. -/
theorem C57_accelerations {args args' : Args ℝ} {mu J2 J3 J4 R : ℝ}
    (hmu : args "mu" = some mu) (h2 : args "J2" = some J2) (h3 : args "J3" = some J3) (h4 : args "J4" = some J4)
    (hR : args "R_eq" = some R)
    (hmu' : args' "mu" = some (u.grav mu)) (h2' : args' "J2" = some J2) (h3' : args' "J3" = some J3)
    (h4' : args' "J4" = some J4) (hR' : args' "R_eq" = some (u.L * R)) (t : ℝ) {r : V3 ℝ} (hr : V3.norm r ≠ 0)
    (rest rest' : List ℝ) :
    ∃ a0 a2 a3 a4, point_mass_grav t ⟨r, rest⟩ args = .ok a0 ∧
      point_mass_grav (u.time t) ⟨u.pos r, rest'⟩ args' = .ok ((u.L / u.T ^ 2) • a0) ∧
      j2_acc t ⟨r, rest⟩ args = .ok a2 ∧ j2_acc (u.time t) ⟨u.pos r, rest'⟩ args' = .ok ((u.L / u.T ^ 2) • a2) ∧
      j3_acc t ⟨r, rest⟩ args = .ok a3 ∧ j3_acc (u.time t) ⟨u.pos r, rest'⟩ args' = .ok ((u.L / u.T ^ 2) • a3) ∧
      j4_acc t ⟨r, rest⟩ args = .ok a4 ∧ j4_acc (u.time t) ⟨u.pos r, rest'⟩ args' = .ok ((u.L / u.T ^ 2) • a4) := by
  have hL := u.L_pos.ne'
  have hT := u.T_pos.ne'
  simp only [point_mass_grav, j2_acc, j3_acc, j4_acc, Args.get, hmu, h2, h3, h4, hR, hmu', h2', h3', h4', hR',
    units_norm_pos]
  set n := V3.norm r
  refine ⟨_, _, _, _, rfl, ?_, rfl, ?_, rfl, ?_, rfl, ?_⟩ <;> refine congrArg Except.ok ?_ <;> ext <;>
    simp only [Units.pos, Units.grav, smul_x, smul_y, smul_z, Nat.cast_ofNat, Nat.cast_one] <;> field_simp

/-- C57: the event function is a length. -/
theorem C57_radius_islow {args args' : Args ℝ} {rmin : ℝ} (h : args "rmin" = some rmin)
    (h' : args' "rmin" = some (u.L * rmin)) (t : ℝ) (r : V3 ℝ) (rest rest' : List ℝ) :
    ∃ d, radius_islow t ⟨r, rest⟩ args = .ok d ∧ radius_islow (u.time t) ⟨u.pos r, rest'⟩ args' = .ok (u.L * d) := by
  simp only [radius_islow, Args.get, h, h', units_norm_pos]
  exact ⟨_, rfl, congrArg Except.ok (by ring)⟩

/-- C57: the path checks do not depend on the units. -/
theorem C57_path_checks (rp r1 r2 t mu : ℝ) (ra v rb : V3 ℝ) :
    nmax_by_periapsis (u.L * rp) (u.L * r1) (u.L * r2) (u.time t) (u.grav mu) = nmax_by_periapsis rp r1 r2 t mu ∧
    is_short_way (u.pos ra) (u.vel v) (u.pos rb) = is_short_way ra v rb ∧
    pass_perigee (u.pos ra) (u.vel v) (u.pos rb) (u.grav mu) = pass_perigee ra v rb mu ∧
    rp_islower_rmin (u.L * rp) (u.pos ra) (u.vel v) (u.grav mu) = rp_islower_rmin rp ra v mu := by
  have hL := u.L_pos
  have hT := u.T_pos
  have hsw : is_short_way (u.pos ra) (u.vel v) (u.pos rb) = is_short_way ra v rb := by
    simp only [is_short_way, units_pos_eq, units_vel_eq, cross_smul_l, cross_smul_r, dot_smul_l, dot_smul_r, lt_real,
      Nat.cast_zero]
    congr 1
    rw [eq_iff_iff]
    have h1 : 0 < u.L / u.T := by positivity
    simp only [mul_pos_iff_of_pos_left hL, mul_pos_iff_of_pos_left h1]
  obtain ⟨h1, h2, h3, -⟩ := C57_vectors u ra v mu
  refine ⟨?_, hsw, ?_, ?_⟩
  · have hmax : max (u.L * r1) (u.L * r2) = u.L * max r1 r2 := (mul_max_of_nonneg _ _ hL.le).symm
    simp only [nmax_by_periapsis, maximum_real, sqrt_real, floor_real, hmax, pi_real]
    rw [show u.grav mu / (((1 : ℕ) : ℝ) / ((2 : ℕ) : ℝ) * (u.L * max r1 r2 + u.L * rp)) ^ 3
      = (1 / u.T) ^ 2 * (mu / (((1 : ℕ) : ℝ) / ((2 : ℕ) : ℝ) * (max r1 r2 + rp)) ^ 3) by
        rw [show ((1 : ℕ) : ℝ) / ((2 : ℕ) : ℝ) * (u.L * max r1 r2 + u.L * rp)
          = u.L * (((1 : ℕ) : ℝ) / ((2 : ℕ) : ℝ) * (max r1 r2 + rp)) by ring, mul_pow, Units.grav,
          show u.L ^ 3 / u.T ^ 2 * mu = u.L ^ 3 * ((1 / u.T) ^ 2 * mu) by ring,
          mul_div_mul_left _ _ (pow_ne_zero 3 hL.ne'), mul_div_assoc]]
    rw [Real.sqrt_mul (sq_nonneg _), Real.sqrt_sq (by positivity)]
    congr 2
    rw [Units.time]
    field_simp
  · simp only [pass_perigee, h2, hsw]
    simp only [units_pos_eq, cross_smul_l, cross_smul_r, dot_smul_l, dot_smul_r, lt_real,
      Nat.cast_zero, mul_pos_iff_of_pos_left hL]
  · simp only [rp_islower_rmin, h1, h2, V3.norm_smul, abs_of_pos (div_pos (pow_pos hL 2) hT), h3, radius_periapsis,
      mul_div_assoc, lt_real, mul_lt_mul_iff_right₀ hL]

section
variable (r v r0 v0 : V3 ℝ) (C F G Ft Gt : ℝ) {mu : ℝ} (hmu : mu ≠ 0) (hr : V3.norm r ≠ 0) (hr0 : V3.norm r0 ≠ 0)

theorem units_sub_vel : u.vel v - u.vel v0 = u.vel (v - v0) := by ext <;> simp [Units.vel] <;> ring
theorem units_sub_pos : u.pos r - u.pos r0 = u.pos (r - r0) := by ext <;> simp [Units.pos] <;> ring

include hmu hr0 in
theorem units_prpr0 : prpr0 (u.pos r) (u.vel v) (u.pos r0) (u.vel v0) F (u.L * u.T * C) (u.grav mu)
    = prpr0 r v r0 v0 F C mu := by
  have hL := u.L_pos.ne'
  have hT := u.T_pos.ne'
  simp only [prpr0, units_norm_pos, units_sub_vel]
  generalize v - v0 = w
  generalize V3.norm r = n
  generalize V3.norm r0 = n0 at hr0 ⊢
  ext <;> simp [Units.pos, Units.vel, Units.grav, M3.outer, M3.eye] <;> field_simp

include hmu in
theorem units_prpv0 : prpv0 (u.pos r) (u.vel v) (u.pos r0) (u.vel v0) F (u.T * G) (u.L * u.T * C) (u.grav mu)
    = u.T • prpv0 r v r0 v0 F G C mu := by
  have hL := u.L_pos.ne'
  have hT := u.T_pos.ne'
  simp only [prpv0, units_norm_pos, units_sub_vel, units_sub_pos]
  generalize v - v0 = w
  generalize r - r0 = q
  generalize V3.norm r0 = n0
  ext <;> simp [Units.pos, Units.vel, Units.grav, M3.outer, M3.eye] <;> field_simp

set_option maxHeartbeats 1000000 in
include hmu hr hr0 in
theorem units_pvpr0 : pvpr0 (u.pos r) (u.vel v) (u.pos r0) (u.vel v0) (Ft / u.T) (u.L * u.T * C) (u.grav mu)
    = (1 / u.T) • pvpr0 r v r0 v0 Ft C mu := by
  have hL := u.L_pos.ne'
  have hT := u.T_pos.ne'
  simp only [pvpr0, units_norm_pos, units_sub_vel]
  generalize v - v0 = w
  generalize V3.norm r = n at hr ⊢
  generalize V3.norm r0 = n0 at hr0 ⊢
  ext <;> simp [Units.pos, Units.vel, Units.grav, M3.outer, M3.eye, M3.mul, M3.transpose, V3.dot] <;> field_simp

include hmu hr in
theorem units_pvpv0 : pvpv0 (u.pos r) (u.vel v) (u.pos r0) (u.vel v0) F Gt (u.L * u.T * C) (u.grav mu)
    = pvpv0 r v r0 v0 F Gt C mu := by
  have hL := u.L_pos.ne'
  have hT := u.T_pos.ne'
  simp only [pvpv0, units_norm_pos, units_sub_vel]
  generalize v - v0 = w
  generalize V3.norm r = n at hr ⊢
  generalize V3.norm r0 = n0
  ext <;> simp [Units.pos, Units.vel, Units.grav, M3.outer, M3.eye] <;> field_simp
end

/-- C57: the transition matrix: `∂r/∂r₀` and `∂v/∂v₀` are pure numbers, `∂r/∂v₀` is a time, `∂v/∂r₀` an inverse
time. -/
theorem C57_dxdx0 (r v r0 v0 : V3 ℝ) (t mu : ℝ) (hmu : mu ≠ 0) (hr : V3.norm r ≠ 0) (hr0 : V3.norm r0 ≠ 0) :
    dxdx0 (u.pos r) (u.vel v) (u.pos r0) (u.vel v0) (u.time t) (u.grav mu)
      = ⟨(dxdx0 r v r0 v0 t mu).rr, u.T • (dxdx0 r v r0 v0 t mu).rv, (1 / u.T) • (dxdx0 r v r0 v0 t mu).vr,
          (dxdx0 r v r0 v0 t mu).vv⟩ := by
  have hL := u.L_pos.ne'
  have hT := u.T_pos.ne'
  have hb2 := Units.sqrt_sq u
  have hα : ((1 : ℕ) : ℝ) / semimajor_axis (V3.norm (u.pos r0)) (V3.norm (u.vel v0)) (u.grav mu)
      = alphaOf r0 v0 mu / u.L := by rw [Nat.cast_one]; exact units_alpha u r0 v0 mu
  have hα' : ((1 : ℕ) : ℝ) / semimajor_axis (V3.norm r0) (V3.norm v0) mu = alphaOf r0 v0 mu := by
    rw [Nat.cast_one]; rfl
  have hχ := (C57_kepler_equations u 0 (alphaOf r0 v0 mu) 0 (sigma_fn r v mu) (sigma_fn r0 v0 mu) t mu 0).2.2.2.2
  simp only [dxdx0, hα, hα', units_sigma, hχ]
  set χ := generalized_anomaly (alphaOf r0 v0 mu) (sigma_fn r v mu) (sigma_fn r0 v0 mu) t mu
  set α := alphaOf r0 v0 mu
  obtain ⟨-, e1, e2, -, e4, e5⟩ := C57_ufunc u χ α
  rw [hb2] at e2
  rw [show Real.sqrt u.L ^ 4 = u.L ^ 2 by rw [← hb2, Real.sqrt_sq (Units.sqrt_pos u).le]; ring] at e4
  obtain ⟨f1, f2, f3, f4, f5⟩ := C57_lagrange u (ufunc1 χ α) (ufunc2 χ α) (ufunc4 χ α) (ufunc5 χ α) χ
    (sigma_fn r0 v0 mu) (V3.norm r0) (V3.norm r) t mu
  simp only [e1, e2, e4, e5, units_norm_pos, f1, f2, f3, f4, f5]
  rw [units_prpr0 u r v r0 v0 _ _ hmu hr0, units_prpv0 u r v r0 v0 _ _ _ hmu, units_pvpr0 u r v r0 v0 _ _ hmu hr hr0,
    units_pvpv0 u r v r0 v0 _ _ _ hmu hr]

/-! ### `kepler` itself depends on the units -/

/-- C57: on a small ellipse, `2 e a^(3/2) ≤ 1e-6` (every ellipse with `a ≤ 6.2e-5`, such as an orbit at 9000 km
from the centre of the Earth in astronomical units), `kepler` makes no Newton step: it returns the state of the
starting value, for every time. -/
theorem C57_small_orbit {r v : V3 ℝ} {mu : ℝ} (hmu : 0 < mu) (hh : angular_momentum r v ≠ ⟨0, 0, 0⟩)
    (ha : 0 < aOf r v mu) (hsmall : 2 * eOf r v mu * Real.sqrt (aOf r v mu) ^ 3 ≤ 1 / 1000000) (ts : List ℝ) :
    kepler ts r v mu = some (ts.map fun t => (stepOf r v mu (Real.sqrt mu / aOf r v mu * t)).1,
      ts.map fun t => (stepOf r v mu (Real.sqrt mu / aOf r v mu * t)).2) := by
  have htol : (defaultTol : ℝ) = 1 / 1000000 := by norm_num [defaultTol]
  have hb : 0 < Real.sqrt (aOf r v mu) := Real.sqrt_pos.2 ha
  have he0 : 0 ≤ eOf r v mu := V3.norm_nonneg _
  obtain ⟨E0, -, -, hE0⟩ := C53_eccentric_exists hmu hh ha
  have hχ : ∀ t, chiOf t (alphaOf r v mu) (V3.norm r) (sigma_fn r v mu) mu = Real.sqrt mu / aOf r v mu * t := by
    intro t
    obtain ⟨k, hk, -, hs, hlt, -⟩ := C13_uni t (1 / aOf r v mu) (V3.norm r) (sigma_fn r v mu) mu defaultTol 50
    have h0 : uniStart t (1 / aOf r v mu) mu = Real.sqrt mu / aOf r v mu * t := by
      simp only [uniStart, sqrt_real, abs_real, abs_of_pos (one_div_pos.2 ha)]; ring
    have hk0 : k = 0 := by
      by_contra hne
      have h1 := hlt 0 (Nat.pos_of_ne_zero hne)
      rw [C55_elliptic_newton hmu ha hE0 t 0, (C53_elliptic_equation hmu ha hE0 t _).1] at h1
      simp only [Function.iterate_zero, id_eq, lt_real, abs_real, decide_eq_true_eq, htol, kep_elps_eq, meanAt] at h1
      set M := E0 - eOf r v mu * Real.sin E0 + mean_anomaly_elps (aOf r v mu) t mu
      rw [show M + eOf r v mu * Real.sin E0 - eOf r v mu * Real.sin (M + eOf r v mu * Real.sin E0) - M
        = eOf r v mu * (Real.sin E0 - Real.sin (M + eOf r v mu * Real.sin E0)) by ring, abs_mul, abs_mul,
        abs_of_pos (pow_pos hb 3), abs_of_nonneg he0] at h1
      have h2 : |Real.sin E0 - Real.sin (M + eOf r v mu * Real.sin E0)| ≤ 2 := by
        have := Real.abs_sin_le_one E0
        have := Real.abs_sin_le_one (M + eOf r v mu * Real.sin E0)
        refine (abs_sub _ _).trans (by linarith)
      have h3 : Real.sqrt (aOf r v mu) ^ 3 * (eOf r v mu * |Real.sin E0 - Real.sin (M + eOf r v mu * Real.sin E0)|)
          ≤ 2 * eOf r v mu * Real.sqrt (aOf r v mu) ^ 3 := by
        have := mul_le_mul_of_nonneg_left h2 (mul_nonneg (pow_pos hb 3).le he0)
        nlinarith
      linarith
    rw [hk0, Function.iterate_zero, id_eq, h0] at hs
    have h4 := solve_eq_chiOf t (alphaOf r v mu) (V3.norm r) (sigma_fn r v mu) mu
    exact Option.some.inj (h4.symm.trans hs)
  rw [kepler_eq_map]
  simp only [keplerRow, item_real, alphaOf_cast, hχ, stepOf]

/-- An ellipse with `a = 1`, `e = 1/2`, `mu = 1`, at periapsis. -/
noncomputable def halfR : V3 ℝ := ⟨1 / 2, 0, 0⟩
noncomputable def halfV : V3 ℝ := ⟨0, Real.sqrt 3, 0⟩

theorem half_norm : V3.norm halfR = 1 / 2 := by
  rw [norm_unfold, halfR]
  rw [show ((1 / 2 : ℝ) ^ 2 + 0 ^ 2 + 0 ^ 2) = (1 / 2) ^ 2 by ring, Real.sqrt_sq (by norm_num)]
theorem half_normV : V3.norm halfV = Real.sqrt 3 := by
  rw [norm_unfold, halfV]
  rw [show ((0 : ℝ) ^ 2 + Real.sqrt 3 ^ 2 + 0 ^ 2) = Real.sqrt 3 ^ 2 by ring, Real.sqrt_sq (Real.sqrt_nonneg _)]
theorem half_h : angular_momentum halfR halfV ≠ ⟨0, 0, 0⟩ := by
  intro h
  have := congrArg V3.z h
  have h3 : (0 : ℝ) < Real.sqrt 3 := Real.sqrt_pos.2 (by norm_num)
  simp only [angular_momentum, V3.cross, halfR, halfV, mul_zero, sub_zero, mul_eq_zero] at this
  rcases this with h | h <;> linarith
theorem half_a : aOf halfR halfV 1 = 1 := by
  simp only [aOf, semimajor_axis, half_norm, half_normV, Real.sq_sqrt (by norm_num : (0 : ℝ) ≤ 3), Nat.cast_ofNat,
    Nat.cast_one]
  norm_num
theorem half_sigma : sigma_fn halfR halfV 1 = 0 := by
  have := sigma_rv (r := halfR) (v := halfV) (mu := 1) one_pos
  simp only [V3.dot, halfR, halfV, mul_zero, zero_mul, add_zero, Real.sqrt_one, one_mul] at this
  exact this.symm
theorem half_alpha : alphaOf halfR halfV 1 = 1 := by
  have : alphaOf halfR halfV 1 = 1 / aOf halfR halfV 1 := rfl
  rw [this, half_a, div_one]
theorem half_e : eOf halfR halfV 1 = 1 / 2 := by
  have h1 := pOf_inv (r := halfR) (v := halfV) (mu := 1) one_pos half_h
  have h2 := pOf_alpha (r := halfR) (v := halfV) (mu := 1) one_pos half_h
  rw [half_alpha, half_norm, half_sigma] at h1
  rw [half_alpha, ← h1] at h2
  have h4 : eOf halfR halfV 1 ^ 2 = (1 / 2) ^ 2 := by linear_combination h2
  exact (pow_left_inj₀ (V3.norm_nonneg _) (by norm_num) two_ne_zero).1 h4

/-- A unit of length ten thousand times larger. -/
noncomputable def bigUnits : Units := ⟨1 / 10000, 1, by norm_num, by norm_num⟩

theorem bigUnits_sqrt : Real.sqrt bigUnits.L = 1 / 100 := by
  rw [show bigUnits.L = (1 / 100) ^ 2 by norm_num [bigUnits], Real.sqrt_sq (by norm_num)]

/-- C57 is false for `kepler` itself: on the ellipse `a = 1`, `e = 1/2` (period `2π`), a quarter of a period after
periapsis, `kepler` returns the state of a time within `1e-6`; in a unit of length ten thousand times larger it
returns the state of a time that is wrong by `1/2`, 8% of the period. -/
theorem C57_kepler_refuted :
    orb_period (aOf halfR halfV 1) 1 = 2 * Real.pi ∧
    (∃ t', |t' - Real.pi / 2| ≤ 1 / 1000000 ∧
      kepler [Real.pi / 2] halfR halfV 1 = some ([(exactProp halfR halfV 1 t').1], [(exactProp halfR halfV 1 t').2])) ∧
    kepler [bigUnits.time (Real.pi / 2)] (bigUnits.pos halfR) (bigUnits.vel halfV) (bigUnits.grav 1)
      = some ([bigUnits.pos (exactProp halfR halfV 1 (Real.pi / 2 - 1 / 2)).1],
          [bigUnits.vel (exactProp halfR halfV 1 (Real.pi / 2 - 1 / 2)).2]) ∧
    kepler [bigUnits.time (Real.pi / 2)] (bigUnits.pos halfR) (bigUnits.vel halfV) (bigUnits.grav 1)
      ≠ (kepler [Real.pi / 2] halfR halfV 1).map fun p => (p.1.map bigUnits.pos, p.2.map bigUnits.vel) := by
  have ha : 0 < aOf halfR halfV 1 := by rw [half_a]; exact one_pos
  have hP : orb_period (aOf halfR halfV 1) 1 = 2 * Real.pi := by
    simp only [orb_period, half_a, sqrt_real, pi_real, Nat.cast_ofNat]; simp
  have hA : ∃ t', |t' - Real.pi / 2| ≤ 1 / 1000000 ∧ kepler [Real.pi / 2] halfR halfV 1
      = some ([(exactProp halfR halfV 1 t').1], [(exactProp halfR halfV 1 t').2]) := by
    have hk := kepler_eq_map [Real.pi / 2] halfR halfV 1
    simp only [List.map_cons, List.map_nil] at hk
    obtain ⟨t, t', h1, h2, h3⟩ := C55_kepler_default_partial one_pos half_h ha (by rw [half_e]; norm_num)
      (by rw [half_a, Real.sqrt_one, one_pow]; exact one_le_pow₀ (by norm_num)) hk (i := 0) rfl rfl
    obtain rfl : Real.pi / 2 = t := by simpa using h1
    rw [Real.sqrt_one, div_one] at h2
    refine ⟨t', h2, ?_⟩
    rw [hk, ← h3]
  have hB : kepler [bigUnits.time (Real.pi / 2)] (bigUnits.pos halfR) (bigUnits.vel halfV) (bigUnits.grav 1)
      = some ([bigUnits.pos (exactProp halfR halfV 1 (Real.pi / 2 - 1 / 2)).1],
          [bigUnits.vel (exactProp halfR halfV 1 (Real.pi / 2 - 1 / 2)).2]) := by
    obtain ⟨χ, h1, h2⟩ := C57_kepler_partial bigUnits [Real.pi / 2] halfR halfV 1
    have h3 := h1 _ (List.mem_singleton.2 rfl)
    have htol : (defaultTol / Real.sqrt bigUnits.L ^ 3 : ℝ) = 1 := by rw [bigUnits_sqrt]; norm_num [defaultTol]
    rw [htol, half_alpha, half_norm, half_sigma] at h3
    have hres : ∀ t, kepler_equ_uni (Real.pi / 2) 1 (1 / 2) 0 t 1 = Real.pi / 2 - 1 / 2 - t := by
      intro t
      simp only [kepler_equ_uni, ufunc1, ufunc2, ufunc3, lt_real, sqrt_real, sin_real, cos_real, Nat.cast_zero,
        zero_lt_one, decide_true, if_true, Real.sqrt_one, one_mul, div_one, Real.sin_pi_div_two]
      ring
    obtain ⟨k, hk, -, hs, hlt, -⟩ := C13_uni (Real.pi / 2) 1 (1 / 2) 0 1 1 50
    have h0 : uniStart (Real.pi / 2) 1 1 = Real.pi / 2 := by simp [uniStart]
    have hk0 : k = 0 := by
      by_contra hne
      have h4 := hlt 0 (Nat.pos_of_ne_zero hne)
      rw [Function.iterate_zero, id_eq, h0, hres] at h4
      simp only [lt_real, abs_real, decide_eq_true_eq] at h4
      rw [show Real.pi / 2 - 1 / 2 - Real.pi / 2 = -(1 / 2) by ring, abs_neg] at h4
      norm_num at h4
    rw [hk0, Function.iterate_zero, id_eq, h0] at hs
    have hχ : χ (Real.pi / 2) = Real.pi / 2 := Option.some.inj (h3.symm.trans hs)
    have hroot : IsRoot halfR halfV 1 (Real.pi / 2 - 1 / 2) (Real.pi / 2) := by
      rw [IsRoot, half_alpha, half_norm, half_sigma, hres]; ring
    simp only [List.map_cons, List.map_nil, hχ] at h2
    rw [h2, exactProp, ← exactChi_unique one_pos half_h hroot]
  refine ⟨hP, hA, hB, fun h => ?_⟩
  obtain ⟨t', h1, h2⟩ := hA
  rw [hB, h2] at h
  simp only [Option.map_some, List.map_cons, List.map_nil, Option.some.injEq, Prod.mk.injEq, List.cons.injEq,
    and_true] at h
  have hpos : (exactProp halfR halfV 1 (Real.pi / 2 - 1 / 2)).1 = (exactProp halfR halfV 1 t').1 := by
    have hL := bigUnits.L_pos.ne'
    have h' := V3.ext_iff.1 h.1
    simp only [Units.pos, mul_right_inj' hL] at h'
    exact V3.ext h'.1 h'.2.1 h'.2.2
  obtain ⟨k, hk⟩ := (C54_elliptic_least_period one_pos half_h ha _ _).1 hpos
  rw [hP] at hk
  have hp := Real.pi_gt_three
  obtain ⟨h3, h4⟩ := abs_le.1 h1
  have h5 : (k : ℝ) * (2 * Real.pi) < 0 := by rw [← hk]; linarith
  have h6 : -(2 * Real.pi) < (k : ℝ) * (2 * Real.pi) := by rw [← hk]; linarith
  have h7 : (k : ℝ) < 0 := by by_contra hc; push Not at hc; nlinarith
  have h8 : (-1 : ℝ) < k := by by_contra hc; push Not at hc; nlinarith
  have h9 : k < 0 := by exact_mod_cast h7
  have h10 : -1 < k := by exact_mod_cast h8
  omega

/-- The hypotheses of `C57_small_orbit` and `C57_exact` are met: the same ellipse in the large unit. -/
example : 0 < aOf (bigUnits.pos halfR) (bigUnits.vel halfV) (bigUnits.grav 1) ∧
    2 * eOf (bigUnits.pos halfR) (bigUnits.vel halfV) (bigUnits.grav 1)
      * Real.sqrt (aOf (bigUnits.pos halfR) (bigUnits.vel halfV) (bigUnits.grav 1)) ^ 3 ≤ 1 / 1000000 := by
  have h1 : aOf (bigUnits.pos halfR) (bigUnits.vel halfV) (bigUnits.grav 1) = bigUnits.L := by
    have := (C57_integrals bigUnits 0 0 1 (V3.norm halfR) (V3.norm halfV) 0 0 0).2.2.1
    rw [aOf, units_norm_pos, units_norm_vel, this, ← aOf, half_a, mul_one]
  have h2 : eOf (bigUnits.pos halfR) (bigUnits.vel halfV) (bigUnits.grav 1) = 1 / 2 := by
    rw [eOf, (C57_vectors bigUnits halfR halfV 1).2.1, ← half_e, eOf]
  rw [h1, h2, bigUnits_sqrt]
  exact ⟨bigUnits.L_pos, by norm_num⟩

end Adx
