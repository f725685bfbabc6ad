import Verif.XR
import Verif.Lemmas.While
import Verif.Model.PathCheck
import Verif.Model.OrbElements
import Verif.Model.Kepler
import Verif.Model.StateTrans
import Verif.Model.Gravity
import Verif.Props.C26

/-!
# C71 — a NaN in an argument reaches the result

In IEEE arithmetic (`XR`), with the other arguments arbitrary, infinities and NaN included.
What holds for the formulas fails for the universal functions (NaN `alpha`, C48), for `solve_kepler_uni` (NaN `r0` or
`sigma0`: the starting value is returned as if it had converged), for a NaN tolerance, and for the yes/no functions.
-/

namespace Adx
namespace XR
section
variable (a : XR)
@[simp] theorem cbrt_nan : JFun.cbrt nan = nan := rfl
@[simp] theorem sinh_nan : JFun.sinh nan = nan := rfl
@[simp] theorem cosh_nan : JFun.cosh nan = nan := rfl
@[simp] theorem log_nan : JFun.log nan = nan := rfl
@[simp] theorem floor_nan : JFun.floor nan = nan := rfl
@[simp] theorem nan_arctan2 : JFun.arctan2 nan a = nan := by cases a <;> rfl
@[simp] theorem arctan2_nan : JFun.arctan2 a nan = nan := by cases a <;> rfl
@[simp] theorem nan_maximum : JFun.maximum nan a = nan := by cases a <;> rfl
@[simp] theorem maximum_nan : JFun.maximum a nan = nan := by cases a <;> rfl
@[simp] theorem nan_pow_two : nan ^ 2 = nan := nan_pow 1
@[simp] theorem nan_pow_three : nan ^ 3 = nan := nan_pow 2
@[simp] theorem nan_pow_four : nan ^ 4 = nan := nan_pow 3
@[simp] theorem nan_pow_five : nan ^ 5 = nan := nan_pow 4
@[simp] theorem nan_pow_seven : nan ^ 7 = nan := nan_pow 6
end
end XR

open XR

/-- Some component is NaN. -/
def HasNaN (v : V3 XR) : Prop := v.x = nan ∨ v.y = nan ∨ v.z = nan

/-- The vector all of whose components are NaN. -/
def nanVec : V3 XR := ⟨nan, nan, nan⟩

/-- The matrix all of whose entries are NaN. -/
def nanMat : M3 XR := ⟨nanVec, nanVec, nanVec⟩

/-! ### Scalar formulas -/

/-- NaN in any argument of a formula of `_orb_integrals.py`. -/
theorem C71_orb_integrals (a b c d e : XR) :
    (orb_period nan b = nan ∧ orb_period a nan = nan) ∧
    (a_from_period nan b = nan ∧ a_from_period a nan = nan) ∧
    (semimajor_axis nan b c = nan ∧ semimajor_axis a nan c = nan ∧ semimajor_axis a b nan = nan) ∧
    (semiparameter nan b = nan ∧ semiparameter a nan = nan) ∧
    mean_motion nan = nan ∧
    (equ_of_orbit nan b c = nan ∧ equ_of_orbit a nan c = nan ∧ equ_of_orbit a b nan = nan) ∧
    (equ_of_orb_uvi nan b c d e = nan ∧ equ_of_orb_uvi a nan c d e = nan ∧ equ_of_orb_uvi a b nan d e = nan ∧
      equ_of_orb_uvi a b c nan e = nan ∧ equ_of_orb_uvi a b c d nan = nan) ∧
    (radius_periapsis nan b = nan ∧ radius_periapsis a nan = nan) ∧
    (radius_apoapsis nan b = nan ∧ radius_apoapsis a nan = nan) ∧
    (semipara_from_ae nan b = nan ∧ semipara_from_ae a nan = nan) ∧
    (a_from_pe nan b = nan ∧ a_from_pe a nan = nan) := by
  simp [orb_period, a_from_period, semimajor_axis, semiparameter, mean_motion, equ_of_orbit, equ_of_orb_uvi,
    radius_periapsis, radius_apoapsis, semipara_from_ae, a_from_pe]

/-- NaN in any argument of the formulas of `_kep_equ.py` and `_lagrange.py`. -/
theorem C71_kep_lagrange (a b c d e : XR) :
    (kepler_equ_elps nan b c = nan ∧ kepler_equ_elps a nan c = nan ∧ kepler_equ_elps a b nan = nan) ∧
    (dE nan b = nan ∧ dE a nan = nan) ∧
    (kepler_equ_hypb nan b c = nan ∧ kepler_equ_hypb a nan c = nan ∧ kepler_equ_hypb a b nan = nan) ∧
    (dH nan b = nan ∧ dH a nan = nan) ∧
    (mean_anomaly_elps nan b c = nan ∧ mean_anomaly_elps a nan c = nan ∧ mean_anomaly_elps a b nan = nan) ∧
    (mean_anomaly_hypb nan b c = nan ∧ mean_anomaly_hypb a nan c = nan ∧ mean_anomaly_hypb a b nan = nan) ∧
    (generalized_anomaly nan b c d e = nan ∧ generalized_anomaly a nan c d e = nan ∧
      generalized_anomaly a b nan d e = nan ∧ generalized_anomaly a b c nan e = nan ∧
      generalized_anomaly a b c d nan = nan) ∧
    (lagrange_F nan b = nan ∧ lagrange_F a nan = nan) ∧
    (lagrange_G nan b c d e = nan ∧ lagrange_G a nan c d e = nan ∧ lagrange_G a b nan d e = nan ∧
      lagrange_G a b c nan e = nan ∧ lagrange_G a b c d nan = nan) ∧
    (lagrange_Ft nan b c d = nan ∧ lagrange_Ft a nan c d = nan ∧ lagrange_Ft a b nan d = nan ∧
      lagrange_Ft a b c nan = nan) ∧
    (lagrange_Gt nan b = nan ∧ lagrange_Gt a nan = nan) := by
  simp [kepler_equ_elps, dE, kepler_equ_hypb, dH, mean_anomaly_elps, mean_anomaly_hypb, generalized_anomaly, lagrange_F,
    lagrange_G, lagrange_Ft, lagrange_Gt]

/-- `nmax_by_periapsis`: also through `jnp.maximum`. -/
theorem C71_nmax (a b c d e : XR) :
    nmax_by_periapsis nan b c d e = nan ∧ nmax_by_periapsis a nan c d e = nan ∧ nmax_by_periapsis a b nan d e = nan ∧
    nmax_by_periapsis a b c nan e = nan ∧ nmax_by_periapsis a b c d nan = nan := by
  simp [nmax_by_periapsis]

/-- The universal functions: NaN in `chi` propagates except through `ufunc0` with `alpha` zero or NaN, which is 1. -/
theorem C71_ufunc_chi (alpha : XR) :
    (ufunc0 nan alpha = nan ∨ (ufunc0 nan alpha = fin 1 ∧ (alpha = fin 0 ∨ alpha = nan))) ∧
    ufunc1 nan alpha = nan ∧ ufunc2 nan alpha = nan ∧ ufunc3 nan alpha = nan ∧ ufunc4 nan alpha = nan ∧
    ufunc5 nan alpha = nan := by
  refine ⟨?_, ?_, ?_, ?_, ?_, ?_⟩
  · cases alpha with
    | fin x =>
      rcases lt_trichotomy x 0 with h | rfl | h
      · left; simp [ufunc0, h, not_lt.2 h.le]
      · right; simp [ufunc0]
      · left; simp [ufunc0, h]
    | pinf => left; simp [ufunc0]
    | ninf => left; simp [ufunc0, JFun.lt, XR.lt]
    | nan => right; simp [ufunc0]
  · simp [ufunc1]
  · simp [ufunc2]
  · simp [ufunc3]
  · simp [ufunc4]
  · simp [ufunc5]

/-- `kepler_equ_uni` at a NaN `chi`, and with a NaN in any argument other than `alpha`. -/
theorem C71_kepler_equ_uni (a b c d e f : XR) :
    kepler_equ_uni nan b c d e f = nan ∧ kepler_equ_uni a b nan d e f = nan ∧ kepler_equ_uni a b c nan e f = nan ∧
    kepler_equ_uni a b c d nan f = nan ∧ kepler_equ_uni a b c d e nan = nan := by
  have h := C71_ufunc_chi b
  refine ⟨?_, ?_, ?_, ?_, ?_⟩ <;> simp [kepler_equ_uni, h]

/-! ### Vectors -/

theorem dot_nan_left {u v : V3 XR} (h : HasNaN u) : V3.dot u v = nan := by
  rcases h with h | h | h <;> simp [V3.dot, h]

theorem dot_nan_right {u v : V3 XR} (h : HasNaN v) : V3.dot u v = nan := by
  rcases h with h | h | h <;> simp [V3.dot, h]

theorem norm_nan {u : V3 XR} (h : HasNaN u) : V3.norm u = nan := by
  rw [V3.norm, dot_nan_left h, sqrt_nan]

/-- Two components of the cross product are NaN. -/
def TwoNaN (v : V3 XR) : Prop := (v.y = nan ∧ v.z = nan) ∨ (v.x = nan ∧ v.z = nan) ∨ (v.x = nan ∧ v.y = nan)

theorem TwoNaN.has {v : V3 XR} (h : TwoNaN v) : HasNaN v := by
  rcases h with h | h | h <;> simp [HasNaN, h]

theorem cross_nan_left {u v : V3 XR} (h : HasNaN u) : TwoNaN (V3.cross u v) := by
  rcases h with h | h | h <;> simp [TwoNaN, h]

theorem cross_nan_right {u v : V3 XR} (h : HasNaN v) : TwoNaN (V3.cross u v) := by
  rcases h with h | h | h <;> simp [TwoNaN, h]

theorem cross_two {u v : V3 XR} (h : TwoNaN v) : V3.cross u v = nanVec := by
  rcases h with h | h | h <;> (ext <;> simp [h, nanVec])

theorem V3.ext_nan {v : V3 XR} (hx : v.x = XR.nan) (hy : v.y = XR.nan) (hz : v.z = XR.nan) : v = nanVec :=
  V3.ext hx hy hz

/-- A NaN in the position or the velocity: two components of the angular momentum, and the whole eccentricity vector. -/
theorem C71_vectors {r v : V3 XR} (h : HasNaN r ∨ HasNaN v) (mu : XR) :
    TwoNaN (angular_momentum r v) ∧ eccentricity_vector r v mu = nanVec ∧ sigma_fn r v mu = nan := by
  have h1 : TwoNaN (angular_momentum r v) := h.elim cross_nan_left cross_nan_right
  refine ⟨h1, ?_, ?_⟩
  · have h2 := cross_two (u := v) h1
    simp only [eccentricity_vector, h2]
    apply V3.ext_nan <;> simp [nanVec]
  · have h3 : V3.dot r v = nan := h.elim dot_nan_left dot_nan_right
    simp [sigma_fn, h3]

/-- A NaN in `mu`: the eccentricity vector and `sigma`. -/
theorem C71_vectors_mu (r v : V3 XR) : eccentricity_vector r v nan = nanVec ∧ sigma_fn r v nan = nan := by
  constructor
  · apply V3.ext_nan <;> simp [eccentricity_vector]
  · simp [sigma_fn]

/-- All six elements are NaN when the state contains one. -/
theorem C71_rv2coe {r v : V3 XR} (h : HasNaN r ∨ HasNaN v) (mu : XR) :
    rv2coe r v mu = ⟨nan, nan, nan, nan, nan, nan⟩ := by
  obtain ⟨h1, h2, -⟩ := C71_vectors h mu
  have hn : V3.norm (angular_momentum r v) = nan := norm_nan h1.has
  have he : V3.norm nanVec = nan := norm_nan (Or.inl rfl)
  have hN : (node_vec (angular_momentum r v)).x = nan ∧ (node_vec (angular_momentum r v)).y = nan := by
    rcases h1 with h | h | h <;> simp [node_vec, h]
  have hc1 : V3.norm (V3.cross nanVec r) = nan := norm_nan (cross_nan_left (Or.inl rfl)).has
  have hc2 : V3.norm (V3.cross (node_vec (angular_momentum r v)) nanVec) = nan :=
    norm_nan (cross_nan_right (Or.inl rfl)).has
  simp [rv2coe, h2, hn, he, semiparameter, inclination, right_ascension, hN, argument_of_periapsis, true_anomaly, hc1, hc2,
    wrapNeg]

example : rv2coe (⟨nan, fin 0, fin 0⟩ : V3 XR) ⟨fin 0, fin 1, fin 0⟩ (fin 1) = ⟨nan, nan, nan, nan, nan, nan⟩ :=
  C71_rv2coe (Or.inl (Or.inl rfl)) _

theorem mulVec_nan {m : M3 XR} {v : V3 XR} (h : HasNaN v) : M3.mulVec m v = nanVec :=
  V3.ext (dot_nan_right h) (dot_nan_right h) (dot_nan_right h)

theorem mulVec_nanMat (v : V3 XR) : M3.mulVec nanMat v = nanVec :=
  V3.ext (dot_nan_left (Or.inl rfl)) (dot_nan_left (Or.inl rfl)) (dot_nan_left (Or.inl rfl))

theorem mul_nanMat (m : M3 XR) : M3.mul nanMat m = nanMat := by
  have h : ∀ v : V3 XR, V3.dot nanVec v = nan := fun v => dot_nan_left (Or.inl rfl)
  simp [M3.mul, nanMat, h]; rfl

/-- `coe2rv`: a NaN in any of the seven arguments makes both vectors NaN, with two exceptions: the `z` components do not
depend on `raan`, and the position does not depend on `mu`. -/
theorem C71_coe2rv (p e i O w f mu : XR) :
    coe2rv nan e i O w f mu = (nanVec, nanVec) ∧ coe2rv p nan i O w f mu = (nanVec, nanVec) ∧
    coe2rv p e nan O w f mu = (nanVec, nanVec) ∧
    coe2rv p e i nan w f mu = (⟨nan, nan, (coe2rv p e i O w f mu).1.z⟩, ⟨nan, nan, (coe2rv p e i O w f mu).2.z⟩) ∧
    coe2rv p e i O nan f mu = (nanVec, nanVec) ∧ coe2rv p e i O w nan mu = (nanVec, nanVec) ∧
    coe2rv p e i O w f nan = ((coe2rv p e i O w f mu).1, nanVec) := by
  have hR : perifocalToInertial nan O w = nanMat := by
    apply M3.ext <;> apply V3.ext <;>
        simp [perifocalToInertial, M3.mul, M3.transpose, rotmat3dx, rotmat3dz, V3.dot, nanMat, nanVec]
  have hO : (perifocalToInertial i nan w).r0 = nanVec ∧ (perifocalToInertial i nan w).r1 = nanVec := by
    constructor <;> apply V3.ext <;>
        simp [perifocalToInertial, M3.mul, M3.transpose, rotmat3dx, rotmat3dz, V3.dot, nanVec]
  have hw : HasNaN (perifocalToInertial i O nan).r0 ∧ HasNaN (perifocalToInertial i O nan).r1 ∧
      HasNaN (perifocalToInertial i O nan).r2 := by
    refine ⟨?_, ?_, ?_⟩ <;> left <;>
        simp [perifocalToInertial, M3.mul, M3.transpose, rotmat3dx, rotmat3dz, V3.dot]
  have hV : ∀ m : M3 XR, ∀ v : V3 XR, HasNaN v → M3.mulVec m v = nanVec := fun m v h => mulVec_nan h
  have hW : ∀ v : V3 XR, M3.mulVec (perifocalToInertial i O nan) v = nanVec := fun v =>
    V3.ext (dot_nan_left hw.1) (dot_nan_left hw.2.1) (dot_nan_left hw.2.2)
  have hd : ∀ v : V3 XR, V3.dot nanVec v = nan := fun v => dot_nan_left (Or.inl rfl)
  refine ⟨?_, ?_, ?_, ?_, ?_, ?_, ?_⟩
  · exact Prod.ext (hV _ _ (by simp [HasNaN, perifocalPos])) (hV _ _ (by simp [HasNaN, perifocalVel]))
  · exact Prod.ext (hV _ _ (by simp [HasNaN, perifocalPos])) (hV _ _ (by simp [HasNaN, perifocalVel]))
  · simp [coe2rv, hR, mulVec_nanMat]
  · have hz : ∀ v : V3 XR, M3.mulVec (perifocalToInertial i nan w) v =
        ⟨nan, nan, (M3.mulVec (perifocalToInertial i O w) v).z⟩ := fun v =>
      V3.ext (by rw [M3.mulVec, hO.1, hd]) (by rw [M3.mulVec, hO.2, hd]) rfl
    exact Prod.ext (hz _) (hz _)
  · exact Prod.ext (hW _) (hW _)
  · exact Prod.ext (hV _ _ (by simp [HasNaN, perifocalPos])) (hV _ _ (by simp [HasNaN, perifocalVel]))
  · exact Prod.ext rfl (hV _ _ (by simp [HasNaN, perifocalVel]))

/-! ### Accelerations -/

/-- A NaN coordinate makes the whole acceleration NaN. -/
theorem C71_gravity (t : XR) (x : State XR) (h : HasNaN x.pos) (args : Args XR) :
    (∀ a, point_mass_grav t x args = .ok a → a = nanVec) ∧ (∀ a, j2_acc t x args = .ok a → a = nanVec) ∧
    (∀ a, j3_acc t x args = .ok a → a = nanVec) ∧ (∀ a, j4_acc t x args = .ok a → a = nanVec) ∧
    (∀ a, radius_islow t x args = .ok a → a = nan) := by
  have hn := norm_nan h
  refine ⟨?_, ?_, ?_, ?_, ?_⟩
  · intro a
    rw [point_mass_grav]
    cases args.get "mu" with
    | error _ => intro h; cases h
    | ok mu => intro h; injection h with h; rw [← h]; simp [hn, nanVec]
  · intro a
    rw [j2_acc]
    rcases args.get "mu" with _ | mu <;> [(intro h; cases h); rcases args.get "J2" with _ | J <;>
      [(intro h; cases h); rcases args.get "R_eq" with _ | R <;> [(intro h; cases h); skip]]]
    intro h; injection h with h; rw [← h]; simp [hn, nanVec]
  · intro a
    rw [j3_acc]
    rcases args.get "mu" with _ | mu <;> [(intro h; cases h); rcases args.get "J3" with _ | J <;>
      [(intro h; cases h); rcases args.get "R_eq" with _ | R <;> [(intro h; cases h); skip]]]
    intro h; injection h with h; rw [← h]; simp [hn, nanVec]
  · intro a
    rw [j4_acc]
    rcases args.get "mu" with _ | mu <;> [(intro h; cases h); rcases args.get "J4" with _ | J <;>
      [(intro h; cases h); rcases args.get "R_eq" with _ | R <;> [(intro h; cases h); skip]]]
    intro h; injection h with h; rw [← h]; simp [hn, nanVec]
  · intro a
    rw [radius_islow]
    cases args.get "rmin" with
    | error _ => intro h; cases h
    | ok mu => intro h; injection h with h; rw [← h]; simp [hn]

/-! ### Solvers -/

/-- A NaN mean anomaly or eccentricity gives NaN. -/
theorem C71_solve_elps (a tol : XR) (n : ℕ) :
    solve_kepler_elps nan a tol n = some nan ∧ solve_kepler_elps a nan tol n = some nan := by
  constructor <;> (rw [solve_kepler_elps, elpsRun, whileLoop]; simp [elpsStart, elpsCond])

theorem C71_solve_hypb (a tol : XR) (n : ℕ) :
    solve_kepler_hypb nan a tol n = some nan ∧ solve_kepler_hypb a nan tol n = some nan := by
  constructor <;> (rw [solve_kepler_hypb, hypbRun, whileLoop]; simp [hypbStart, hypbCond, kepler_equ_hypb])

/-- `solve_kepler_uni`: NaN in the time, in `alpha` or in `mu` gives NaN. -/
theorem C71_solve_uni (t a r s mu tol : XR) (n : ℕ) :
    solve_kepler_uni nan a r s mu tol n = some nan ∧ solve_kepler_uni t nan r s mu tol n = some nan ∧
    solve_kepler_uni t a r s nan tol n = some nan := by
  have h0 : ∀ b : XR, ∀ t r s mu : XR, kepler_equ_uni nan b r s t mu = nan := fun b t r s mu => (C71_kepler_equ_uni nan b r s t mu).1
  refine ⟨?_, ?_, ?_⟩ <;> (rw [solve_kepler_uni, uniRun, whileLoop]; simp [uniInit, uniStart, uniCond, h0])

/-- But a NaN distance or `sigma0` is swallowed: the starting value `√μ |α| t` comes back. -/
theorem C71_solve_uni_swallowed (t a r s mu tol : XR) (n : ℕ) :
    solve_kepler_uni t a nan s mu tol n = some (uniStart t a mu) ∧
    solve_kepler_uni t a r nan mu tol n = some (uniStart t a mu) := by
  constructor
  · have h := fun c => (C71_kepler_equ_uni c a r s t mu).2.1
    rw [solve_kepler_uni, uniRun, whileLoop]; simp [uniInit, uniCond, h]
  · have h := fun c => (C71_kepler_equ_uni c a r s t mu).2.2.1
    rw [solve_kepler_uni, uniRun, whileLoop]; simp [uniInit, uniCond, h]

/-- The same with a NaN tolerance, for all three solvers: the starting value, no Newton step. -/
theorem C71_nan_tol (M e t a r s mu : XR) (n : ℕ) :
    solve_kepler_elps M e nan n = some (elpsStart M e) ∧ solve_kepler_hypb M e nan n = some (hypbStart M e) ∧
    solve_kepler_uni t a r s mu nan n = some (uniStart t a mu) := by
  refine ⟨?_, ?_, ?_⟩
  · rw [solve_kepler_elps, elpsRun, whileLoop]; simp [elpsCond]
  · rw [solve_kepler_hypb, hypbRun, whileLoop]; simp [hypbCond]
  · rw [solve_kepler_uni, uniRun, whileLoop]; simp [uniInit, uniCond]

/-- Concretely: a unit circular orbit with NaN distance "converges" to `chi = 1` for `t = 1`. -/
theorem C71_solve_uni_refuted :
    solve_kepler_uni (fin 1) (fin 1) nan (fin 0) (fin 1) (fin 1) 50 = some (fin 1) := by
  rw [(C71_solve_uni_swallowed _ _ (fin 0) _ _ _ _).1]
  simp [uniStart, sqrt_fin]

/-! ### `kepler` and `dxdx0` -/

theorem keplerStep_nan_chi (alpha r0 s : XR) (r v : V3 XR) (mu : XR) :
    keplerStep nan alpha r0 s r v mu = (nanVec, nanVec) := by
  obtain ⟨-, h1, h2, -⟩ := C71_ufunc_chi alpha
  refine Prod.ext (V3.ext_nan ?_ ?_ ?_) (V3.ext_nan ?_ ?_ ?_) <;>
    simp [keplerStep, lagrange_prop, lagrange_F, lagrange_G, lagrange_Ft, lagrange_Gt, h1, h2]

theorem keplerRow_nan_arg {r v : V3 XR} {mu t : XR} (h : HasNaN r ∨ HasNaN v ∨ mu = nan ∨ t = nan) :
    keplerRow r v mu t = (nanVec, nanVec) := by
  have hc : chiOf t (ℓ 1 / semimajor_axis (V3.norm r) (V3.norm v) mu) (V3.norm r) (sigma_fn r v mu) mu = nan := by
    rcases h with h | h | h | h
    · have : (ℓ 1 / semimajor_axis (V3.norm r) (V3.norm v) mu : XR) = nan := by simp [norm_nan h, semimajor_axis]
      rw [chiOf, this, (C71_solve_uni _ nan _ _ _ _ _).2.1]; rfl
    · have : (ℓ 1 / semimajor_axis (V3.norm r) (V3.norm v) mu : XR) = nan := by simp [norm_nan h, semimajor_axis]
      rw [chiOf, this, (C71_solve_uni _ nan _ _ _ _ _).2.1]; rfl
    · subst h; rw [chiOf, (C71_solve_uni _ _ _ _ nan _ _).2.2]; rfl
    · subst h; rw [chiOf, (C71_solve_uni nan _ _ _ _ _ _).1]; rfl
  simp only [keplerRow, item_xr, hc]
  exact keplerStep_nan_chi _ _ _ _ _ _

/-- A NaN in the state or in `mu` makes every row NaN. -/
theorem C71_kepler {r v : V3 XR} {mu : XR} (h : HasNaN r ∨ HasNaN v ∨ mu = nan) (ts : List XR) :
    kepler ts r v mu = some (ts.map fun _ => nanVec, ts.map fun _ => nanVec) := by
  rw [kepler_eq_map]
  have : ∀ t, keplerRow r v mu t = (nanVec, nanVec) := fun t =>
    keplerRow_nan_arg (h.imp_right (Or.imp_right Or.inl))
  simp [this]

/-- A NaN time makes its own row NaN and no other (the others are those of the call without it, C26). -/
theorem C71_kepler_time (ts us : List XR) (r v : V3 XR) (mu : XR) (rs vs rs' vs' : List (V3 XR))
    (h1 : kepler ts r v mu = some (rs, vs)) (h2 : kepler us r v mu = some (rs', vs')) :
    kepler (ts ++ nan :: us) r v mu = some (rs ++ nanVec :: rs', vs ++ nanVec :: vs') := by
  rw [kepler_eq_map] at h1 h2 ⊢
  obtain ⟨rfl, rfl⟩ := Prod.mk.inj (Option.some.inj h1)
  obtain ⟨rfl, rfl⟩ := Prod.mk.inj (Option.some.inj h2)
  have : keplerRow r v mu nan = (nanVec, nanVec) := keplerRow_nan_arg (Or.inr (Or.inr (Or.inr rfl)))
  simp [this]

example : kepler [fin 0, fin 1] ⟨fin 1, nan, fin 0⟩ (vec ⟨0, 1, 0⟩) (fin 1) = some ([nanVec, nanVec], [nanVec, nanVec]) :=
  C71_kepler (Or.inl (Or.inr (Or.inl rfl))) _

/-- A NaN anywhere in the arguments of `dxdx0` makes all 36 entries NaN. -/
theorem C71_dxdx0 {r v r0 v0 : V3 XR} {dt mu : XR}
    (h : HasNaN r ∨ HasNaN v ∨ HasNaN r0 ∨ HasNaN v0 ∨ dt = nan ∨ mu = nan) :
    dxdx0 r v r0 v0 dt mu = ⟨nanMat, nanMat, nanMat, nanMat⟩ := by
  have hc : generalized_anomaly (ℓ 1 / semimajor_axis (V3.norm r0) (V3.norm v0) mu) (sigma_fn r v mu) (sigma_fn r0 v0 mu)
      dt mu = nan := by
    rcases h with h | h | h | h | h | h
    · simp [generalized_anomaly, sigma_fn, dot_nan_left h]
    · simp [generalized_anomaly, sigma_fn, dot_nan_right h]
    · simp [generalized_anomaly, sigma_fn, dot_nan_left h]
    · simp [generalized_anomaly, sigma_fn, dot_nan_right h]
    · simp [generalized_anomaly, h]
    · simp [generalized_anomaly, sigma_fn, h]
  obtain ⟨-, h1, h2, -, h4, h5⟩ := C71_ufunc_chi (ℓ 1 / semimajor_axis (V3.norm r0) (V3.norm v0) mu)
  have hm : ∀ v0 : V3 XR, nan • v0 = nanVec := fun v => V3.ext_nan (by simp) (by simp) (by simp)
  have hM : ∀ m : M3 XR, nan • m = nanMat := fun m => M3.ext (hm _) (hm _) (hm _)
  have ha : ∀ v : V3 XR, v + nanVec = nanVec := fun v => V3.ext_nan (by simp [nanVec]) (by simp [nanVec]) (by simp [nanVec])
  have hA : ∀ m : M3 XR, m + nanMat = nanMat := fun m => M3.ext (ha _) (ha _) (ha _)
  have hs : ∀ v : V3 XR, nanVec - v = nanVec := fun v => V3.ext_nan (by simp [nanVec]) (by simp [nanVec]) (by simp [nanVec])
  have hS : ∀ m : M3 XR, nanMat - m = nanMat := fun m => M3.ext (hs _) (hs _) (hs _)
  apply B6.ext <;> simp only [dxdx0, hc, h1, h2, h4, h5]
  · simp only [prpr0, lagrange_F, nan_div, sub_nan, hM, hA]
  · simp only [prpv0, lagrange_G, nan_div, mul_nan, nan_add, hM, hA]
  · simp only [pvpr0, lagrange_Ft, mul_nan, nan_div, hM, hA, hS]
  · simp only [pvpv0, lagrange_Gt, nan_div, sub_nan, hM, hA]

/-! ### Yes/no functions -/

/-- NaN anywhere in the input of the path checks: `is_short_way` answers no, `rp_islower_rmin` answers no (the orbit looks
safe), and `pass_perigee` answers **yes** when the starting state contains the NaN. -/
theorem C71_path_check {r1 v1 : V3 XR} (h : HasNaN r1 ∨ HasNaN v1) (r2 : V3 XR) (mu rmin : XR) :
    is_short_way r1 v1 r2 = false ∧ rp_islower_rmin rmin r1 v1 mu = false ∧ pass_perigee r1 v1 r2 mu = true := by
  obtain ⟨h1, h2, -⟩ := C71_vectors h mu
  have hs : is_short_way r1 v1 r2 = false := by
    have : V3.dot (V3.cross r1 v1) (V3.cross r1 r2) = nan := dot_nan_left h1.has
    simp [is_short_way, this]
  refine ⟨hs, ?_, ?_⟩
  · have hn : V3.norm (angular_momentum r1 v1) = nan := norm_nan h1.has
    simp [rp_islower_rmin, hn, semiparameter, radius_periapsis]
  · have hc : V3.dot (V3.cross r1 r2) (V3.cross r1 nanVec) = nan :=
      dot_nan_right (cross_nan_right (Or.inl rfl)).has
    simp [pass_perigee, h2, hc, hs]

theorem C71_path_check_r2 {r2 : V3 XR} (h : HasNaN r2) (r1 v1 : V3 XR) (mu : XR) :
    is_short_way r1 v1 r2 = false ∧ pass_perigee r1 v1 r2 mu = true := by
  have hc : HasNaN (V3.cross r1 r2) := (cross_nan_right h).has
  constructor
  · simp [is_short_way, dot_nan_right hc]
  · simp [pass_perigee, dot_nan_left hc, is_short_way, dot_nan_right hc]

example : pass_perigee (⟨fin 1, fin 0, fin 0⟩ : V3 XR) ⟨fin 0, fin 1, fin 0⟩ ⟨nan, fin 0, fin 0⟩ (fin 1) = true :=
  (C71_path_check_r2 (Or.inl rfl) _ _ _).2

end Adx
