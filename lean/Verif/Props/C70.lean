import Verif.JN
import Verif.Model.PathCheck
import Verif.Model.KepEqu
import Verif.Model.Lagrange
import Verif.Props.C48b

/-!
# C70 — integer arrays

The docstrings accept `ArrayLike`, so a caller may pass integer arrays (`jnp.array(7000)`, positions in whole kilometres).
The arithmetic is `JN`: `int32` with wrapping next to exact floating point.

Two groups of functions:
* *transparent*: the result is that of the same numbers as floats, whatever the dtypes;
* *wrapping*: an integer intermediate (`a**3`, `orbperiod**2`, `h_mag**2`, a cross or dot product) is computed modulo `2^32`.
  The result is the float one as long as the intermediate fits 32 bits, and a different orbit, a negative length, NaN, or a
  reversed decision beyond.
-/

namespace Adx
open JN

/-- Finite float. -/
noncomputable abbrev ff (x : ℝ) : JN := flt (.fin x)

/-- An integer vector. -/
def ivec (x y z : ℤ) : V3 JN := ⟨int x, int y, int z⟩

/-- A float vector. -/
noncomputable def fvec (x y z : ℝ) : V3 JN := ⟨ff x, ff y, ff z⟩

theorem realCbrt_neg_of_neg {x : ℝ} (h : x < 0) : realCbrt x < 0 := by
  rw [realCbrt, if_neg (not_le.2 h)]
  have : 0 < (-x) ^ (1 / 3 : ℝ) := Real.rpow_pos_of_pos (by linarith) _
  linarith

/-! ### Wrapping functions: the exact law -/

/-- `orb_period` of an integer `a`: the cube is taken modulo `2^32`. -/
theorem C70_orb_period (a : ℤ) (mu : ℝ) : orb_period (int a) (ff mu) =
    flt (.fin (2 * Real.pi) * JFun.sqrt (.fin ((wrap (a ^ 3) : ℤ) : ℝ) / .fin mu)) := by
  simp [orb_period]

/-- The same as with a float `a` while `a³` fits. -/
theorem C70_orb_period_fits {a : ℤ} (h0 : 0 ≤ a) (h : a ^ 3 < 2147483648) {mu : ℝ} (hmu : 0 < mu) :
    orb_period (int a) (ff mu) = ff (orb_period (a : ℝ) mu) := by
  have h1 : (0 : ℤ) ≤ a ^ 3 := by positivity
  have h2 : (0 : ℝ) ≤ (a : ℝ) ^ 3 / mu := by
    have : (0 : ℝ) ≤ a := by exact_mod_cast h0
    positivity
  rw [C70_orb_period, wrap_eq (by omega) h, XR.fin_div _ hmu.ne']
  push_cast
  rw [XR.sqrt_fin h2]
  simp [orb_period]

example : orb_period (int 1000) (ff 398600) = ff (orb_period ((1000 : ℤ) : ℝ) 398600) :=
  C70_orb_period_fits (by norm_num) (by norm_num) (by norm_num)

/-- NaN when the cube wraps to a negative number, in particular for every `a` from 1291 to 1625. -/
theorem C70_orb_period_nan {a : ℤ} (h : wrap (a ^ 3) < 0) {mu : ℝ} (hmu : 0 < mu) :
    orb_period (int a) (ff mu) = flt .nan := by
  have h' : ((wrap (a ^ 3) : ℤ) : ℝ) / mu < 0 :=
    div_neg_of_neg_of_pos (by exact_mod_cast h) hmu
  rw [C70_orb_period, XR.fin_div _ hmu.ne', XR.sqrt_neg h', XR.mul_nan]

theorem C70_orb_period_nan_range {a : ℤ} (h1 : 1291 ≤ a) (h2 : a ≤ 1625) {mu : ℝ} (hmu : 0 < mu) :
    orb_period (int a) (ff mu) = flt .nan := by
  refine C70_orb_period_nan (wrap_neg ?_ ?_) hmu
  · have : (1291 : ℤ) ^ 3 ≤ a ^ 3 := pow_le_pow_left₀ (by norm_num) h1 3
    norm_num at this; linarith
  · have : a ^ 3 ≤ (1625 : ℤ) ^ 3 := pow_le_pow_left₀ (by linarith) h2 3
    norm_num at this; linarith

/-- A low Earth orbit in whole kilometres: NaN with an integer array, a period with a float one. -/
theorem C70_orb_period_leo :
    orb_period (int 7000) (ff 398600) = flt .nan ∧
    orb_period (ff 7000) (ff 398600) = ff (orb_period (7000 : ℝ) 398600) := by
  constructor
  · exact C70_orb_period_nan (by norm_num [wrap]) (by norm_num)
  · have h : (0 : ℝ) ≤ 7000 ^ 3 / 398600 := by norm_num
    simp only [orb_period, cast_jn, pi_jn, mul_flt, toX_int, pow_flt, XR.fin_pow, div_jn, toX_flt, sqrt_jn, XR.fin_mul,
      XR.fin_div (7000 ^ 3) (show (398600 : ℝ) ≠ 0 by norm_num), XR.sqrt_fin h]
    simp

/-- A period that is finite and wrong: `1626³` wraps to a positive number. -/
theorem C70_orb_period_wrong :
    orb_period (int 1626) (ff 1) = ff (2 * Real.pi * Real.sqrt 3975080) ∧
    orb_period (int 1626) (ff 1) ≠ ff (orb_period ((1626 : ℤ) : ℝ) 1) := by
  have h0 : orb_period (int 1626) (ff 1) = ff (2 * Real.pi * Real.sqrt 3975080) := by
    have hw : wrap (1626 ^ 3) = 3975080 := by norm_num [wrap]
    rw [C70_orb_period, hw, XR.fin_div _ one_ne_zero, XR.sqrt_fin (by norm_num)]
    norm_num
  refine ⟨h0, ?_⟩
  rw [h0]
  intro h
  have h1 : 2 * Real.pi * Real.sqrt 3975080 = 2 * Real.pi * Real.sqrt (1626 ^ 3 / 1) := by
    have := h
    simp only [JN.flt.injEq, XR.fin_inj] at this
    simpa [orb_period] using this
  have h2 := mul_left_cancel₀ (by positivity : (2 * Real.pi : ℝ) ≠ 0) h1
  have h3 : (3975080 : ℝ) = 1626 ^ 3 / 1 := (Real.sqrt_inj (by norm_num) (by norm_num)).1 h2
  norm_num at h3

/-- `a_from_period` of an integer period. -/
theorem C70_a_from_period (P : ℤ) (mu : ℝ) : a_from_period (int P) (ff mu) =
    ff (realCbrt (((wrap (P ^ 2) : ℤ) : ℝ) * mu / 4 / Real.pi ^ 2)) := by
  have h : (Real.pi ^ 2 : ℝ) ≠ 0 := by positivity
  have h4 : (4 : ℝ) ≠ 0 := by norm_num
  simp [a_from_period]
  rw [XR.fin_div _ h4, XR.fin_div _ h, XR.cbrt_fin]

theorem C70_a_from_period_fits {P : ℤ} (h : P ^ 2 < 2147483648) (mu : ℝ) :
    a_from_period (int P) (ff mu) = ff (a_from_period (P : ℝ) mu) := by
  have h1 : (0 : ℤ) ≤ P ^ 2 := by positivity
  rw [C70_a_from_period, wrap_eq (by omega) h]
  simp [a_from_period]

example : a_from_period (int 6000) (ff 398600) = ff (a_from_period ((6000 : ℤ) : ℝ) 398600) :=
  C70_a_from_period_fits (by norm_num) _

/-- A negative semimajor axis for every whole number of seconds from 46341 to 65535 (12.9 to 18.2 hours). -/
theorem C70_a_from_period_neg {P : ℤ} (h1 : 46341 ≤ P) (h2 : P ≤ 65535) {mu : ℝ} (hmu : 0 < mu) :
    ∃ a : ℝ, a < 0 ∧ a_from_period (int P) (ff mu) = ff a := by
  refine ⟨_, ?_, C70_a_from_period P mu⟩
  have hw : wrap (P ^ 2) < 0 := wrap_neg (by nlinarith) (by nlinarith)
  have hw' : ((wrap (P ^ 2) : ℤ) : ℝ) < 0 := by exact_mod_cast hw
  have hx : ((wrap (P ^ 2) : ℤ) : ℝ) * mu / 4 / Real.pi ^ 2 < 0 :=
    div_neg_of_neg_of_pos (div_neg_of_neg_of_pos (mul_neg_of_neg_of_pos hw' hmu) (by norm_num)) (by positivity)
  exact realCbrt_neg_of_neg hx

/-- The sidereal day: `86164² mod 2^32` is negative too. -/
theorem C70_a_from_period_geo : ∃ a : ℝ, a < 0 ∧ a_from_period (int 86164) (ff 398600) = ff a := by
  refine ⟨_, ?_, C70_a_from_period 86164 398600⟩
  have hw : wrap (86164 ^ 2) = -1165699696 := by norm_num [wrap]
  rw [hw]
  have hx : ((-1165699696 : ℤ) : ℝ) * 398600 / 4 / Real.pi ^ 2 < 0 :=
    div_neg_of_neg_of_pos (by norm_num) (by positivity)
  exact realCbrt_neg_of_neg hx

/-- `semiparameter` of an integer angular momentum. -/
theorem C70_semiparameter (h : ℤ) {mu : ℝ} (hmu : mu ≠ 0) :
    semiparameter (int h) (ff mu) = ff (((wrap (h ^ 2) : ℤ) : ℝ) / mu) := by
  simp [semiparameter, XR.fin_div _ hmu]

theorem C70_semiparameter_fits {h : ℤ} (hh : h ^ 2 < 2147483648) {mu : ℝ} (hmu : mu ≠ 0) :
    semiparameter (int h) (ff mu) = ff (semiparameter (h : ℝ) mu) := by
  have h1 : (0 : ℤ) ≤ h ^ 2 := by positivity
  rw [C70_semiparameter h hmu, wrap_eq (by omega) hh]
  simp [semiparameter]

/-- A negative semiparameter for `46341 ≤ h ≤ 65535` km²/s (a circular orbit of Earth up to 10700 km). -/
theorem C70_semiparameter_neg {h : ℤ} (h1 : 46341 ≤ h) (h2 : h ≤ 65535) {mu : ℝ} (hmu : 0 < mu) :
    ∃ p : ℝ, p < 0 ∧ semiparameter (int h) (ff mu) = ff p := by
  refine ⟨_, ?_, C70_semiparameter h hmu.ne'⟩
  have hw : wrap (h ^ 2) < 0 := wrap_neg (by nlinarith) (by nlinarith)
  exact div_neg_of_neg_of_pos (by exact_mod_cast hw) hmu

example : semiparameter (int 40000) (ff 398600) = ff (semiparameter ((40000 : ℤ) : ℝ) 398600) :=
  C70_semiparameter_fits (by norm_num) (by norm_num)
example : ∃ p : ℝ, p < 0 ∧ semiparameter (int 52500) (ff 398600) = ff p :=
  C70_semiparameter_neg (by norm_num) (by norm_num) (by norm_num)

/-- `semimajor_axis` with an integer speed. -/
theorem C70_semimajor_axis {r : ℝ} (hr : r ≠ 0) (v : ℤ) {mu : ℝ} (hmu : mu ≠ 0) :
    semimajor_axis (ff r) (int v) (ff mu) =
      flt (.fin 1 / .fin (2 / r - ((wrap (v ^ 2) : ℤ) : ℝ) / mu)) := by
  simp [semimajor_axis, XR.fin_div _ hr, XR.fin_div _ hmu]

/-- An integer distance is harmless in `semimajor_axis`. -/
theorem C70_semimajor_axis_r (r v mu : JN) :
    semimajor_axis r v mu = semimajor_axis r.up v mu.up := by
  simp [semimajor_axis]

/-- Speed in whole metres per second, 50 km/s: the orbit looks bound (`a > 0`) though it is a hyperbola. -/
theorem C70_semimajor_axis_wrong :
    ∃ a : ℝ, 0 < a ∧ semimajor_axis (ff 7000000) (int 50000) (ff 398600000000000) = ff a ∧
      semimajor_axis (7000000 : ℝ) 50000 398600000000000 < 0 := by
  have hw : wrap (50000 ^ 2) = -1794967296 := by norm_num [wrap]
  refine ⟨_, ?_, by
    rw [C70_semimajor_axis (by norm_num) _ (by norm_num), hw, XR.fin_div _ (by norm_num)], ?_⟩
  · norm_num
  · simp [semimajor_axis]; norm_num

/-- `mean_anomaly_elps` and `mean_anomaly_hypb` of an integer `a`. -/
theorem C70_mean_anomaly (a : ℤ) (t mu : JN) :
    mean_anomaly_elps (int a) t mu =
      flt (JFun.sqrt (mu.toX / .fin ((wrap (a ^ 3) : ℤ) : ℝ)) * t.toX) ∧
    mean_anomaly_hypb (int a) t mu =
      flt (JFun.sqrt (mu.toX / .fin ((wrap (-a ^ 3) : ℤ) : ℝ)) * t.toX) := by
  constructor
  · simp [mean_anomaly_elps]
  · have h : wrap (-wrap (a ^ 3)) = wrap (-a ^ 3) := by
      obtain ⟨k, hk⟩ := wrap_congr (a ^ 3)
      exact wrap_of_dvd ⟨-k, by omega⟩
    simp [mean_anomaly_hypb, h]

/-- While the cube fits, the mean anomaly is that of the float `a`. -/
theorem C70_mean_anomaly_fits {a : ℤ} (h : |a ^ 3| < 2147483648) (t mu : JN) :
    mean_anomaly_elps (int a) t mu = mean_anomaly_elps (int a).up t.up mu.up ∧
    mean_anomaly_hypb (int a) t mu = mean_anomaly_hypb (int a).up t.up mu.up := by
  obtain ⟨h1, h2⟩ := abs_lt.1 h
  rw [(C70_mean_anomaly a t mu).1, (C70_mean_anomaly a t mu).2, wrap_eq (by omega) h2, wrap_eq (by omega) (by omega)]
  simp [mean_anomaly_elps, mean_anomaly_hypb]

/-- `angular_momentum` of integer vectors: every component modulo `2^32`. -/
theorem C70_angular_momentum (a b c d e f : ℤ) : angular_momentum (ivec a b c) (ivec d e f) =
    ivec (wrap (b * f - c * e)) (wrap (c * d - a * f)) (wrap (a * e - b * d)) := by
  simp [angular_momentum, V3.cross, ivec, wrap_sub]

/-- The components agree with the exact ones exactly when these fit 32 bits. -/
theorem C70_wrap_iff (n : ℤ) : wrap n = n ↔ -2147483648 ≤ n ∧ n < 2147483648 :=
  ⟨fun h => h ▸ wrap_range n, fun h => wrap_eq h.1 h.2⟩

/-- Position in metres, velocity in metres per second, low orbit: the angular momentum has the wrong size and sign. -/
theorem C70_angular_momentum_wrong :
    angular_momentum (ivec 7000000 0 0) (ivec 0 7500 0) = ivec 0 0 960392448 ∧
    angular_momentum (ivec 7000 0 0) (ivec 0 400000 0) = ivec 0 0 (-1494967296) := by
  constructor <;> (rw [C70_angular_momentum]; norm_num [wrap])

/-- `sigma_fn` of integer vectors: the dot product modulo `2^32`. -/
theorem C70_sigma (a b c d e f : ℤ) (mu : JN) : sigma_fn (ivec a b c) (ivec d e f) mu =
    flt (.fin ((wrap (a * d + b * e + c * f) : ℤ) : ℝ) / JFun.sqrt mu.toX) := by
  simp [sigma_fn, V3.dot, ivec, wrap_add]

theorem C70_sigma_fits {a b c d e f : ℤ} (h : |a * d + b * e + c * f| < 2147483648) {mu : ℝ} (hmu : 0 < mu) :
    sigma_fn (ivec a b c) (ivec d e f) (ff mu) = ff (sigma_fn (⟨a, b, c⟩ : V3 ℝ) ⟨d, e, f⟩ mu) := by
  obtain ⟨h1, h2⟩ := abs_lt.1 h
  rw [C70_sigma, wrap_eq (by omega) h2]
  simp only [toX_flt, XR.sqrt_fin hmu.le, XR.fin_div _ (Real.sqrt_pos.2 hmu).ne']
  simp [sigma_fn, V3.dot]

example : sigma_fn (ivec 7000 100 0) (ivec 1 7 2) (ff 398600) =
    ff (sigma_fn (⟨(7000 : ℤ), (100 : ℤ), (0 : ℤ)⟩ : V3 ℝ) ⟨(1 : ℤ), (7 : ℤ), (2 : ℤ)⟩ 398600) :=
  C70_sigma_fits (by norm_num) (by norm_num)

/-- `is_short_way` of integer vectors tests the sign of the wrapped product. -/
theorem C70_is_short_way (a b c d e f g h k : ℤ) :
    is_short_way (ivec a b c) (ivec d e f) (ivec g h k) =
      decide (0 < wrap ((b * f - c * e) * (b * k - c * h) + (c * d - a * f) * (c * g - a * k)
        + (a * e - b * d) * (a * h - b * g))) := by
  simp only [is_short_way, V3.dot, V3.cross, ivec, mul_int, sub_int, add_int, cast_jn, lt_jn, toX_int, XR.lt_fin, wrap_sub,
    wrap_mul, wrap_add]
  simp only [Nat.cast_zero, Int.cast_zero, Int.cast_pos]

/-- It agrees with the float decision while the product fits. -/
theorem C70_is_short_way_fits {a b c d e f g h k : ℤ}
    (hs : |(b * f - c * e) * (b * k - c * h) + (c * d - a * f) * (c * g - a * k)
        + (a * e - b * d) * (a * h - b * g)| < 2147483648) :
    is_short_way (ivec a b c) (ivec d e f) (ivec g h k) =
      is_short_way (⟨a, b, c⟩ : V3 ℝ) ⟨d, e, f⟩ ⟨g, h, k⟩ := by
  obtain ⟨h1, h2⟩ := abs_lt.1 hs
  rw [C70_is_short_way, wrap_eq (by omega) h2]
  simp only [is_short_way, V3.dot, V3.cross, lt_real]
  apply decide_eq_decide.2
  rw [← Int.cast_pos (R := ℝ)]
  push_cast
  rfl

example : is_short_way (ivec 10 0 0) (ivec 0 3 0) (ivec 0 10 0) =
    is_short_way (⟨(10 : ℤ), (0 : ℤ), (0 : ℤ)⟩ : V3 ℝ) ⟨(0 : ℤ), (3 : ℤ), (0 : ℤ)⟩ ⟨(0 : ℤ), (10 : ℤ), (0 : ℤ)⟩ :=
  C70_is_short_way_fits (by norm_num)

/-- A quarter turn in the direction of motion, at 1000 km and 3 km/s: the integer answer is "long way". -/
theorem C70_is_short_way_wrong :
    is_short_way (ivec 1000 0 0) (ivec 0 3 0) (ivec 0 1000 0) = false ∧
    is_short_way (⟨1000, 0, 0⟩ : V3 ℝ) ⟨0, 3, 0⟩ ⟨0, 1000, 0⟩ = true := by
  constructor
  · rw [C70_is_short_way]; norm_num [wrap]
  · simp [is_short_way, V3.dot, V3.cross]

/-! ### Transparent functions -/

/-- Functions whose result does not depend on the dtypes of their arguments. -/
theorem C70_transparent (x y z t mu : JN) :
    mean_motion x = mean_motion x.up ∧
    equ_of_orbit x y z = equ_of_orbit x.up y.up z.up ∧
    kepler_equ_elps x y z = kepler_equ_elps x.up y.up z.up ∧
    dE x y = dE x.up y.up ∧
    kepler_equ_hypb x y z = kepler_equ_hypb x.up y.up z.up ∧
    dH x y = dH x.up y.up ∧
    lagrange_F x y = lagrange_F x.up y.up ∧
    lagrange_Gt x y = lagrange_Gt x.up y.up ∧
    generalized_anomaly x y z t mu = generalized_anomaly x.up y.up z.up t.up mu.up := by
  simp [mean_motion, equ_of_orbit, kepler_equ_elps, dE, kepler_equ_hypb, dH, lagrange_F, lagrange_Gt, generalized_anomaly]

theorem C70_lagrange_Ft (u r r0 mu : JN) : lagrange_Ft u r r0 mu = lagrange_Ft u.up r.up r0.up mu.up := by
  simp [lagrange_Ft]

/-- Float carries. -/
noncomputable def fltCarry (c : Carry XR) : Carry JN := (c.1, flt c.2.1, flt c.2.2)

/-- Every integer below `2^30` in size can be doubled. -/
theorem C70_double {n : ℤ} (h : |n| < 1073741824) : (ℓ 2 * int n).toX = ℓ 2 * (int n).toX := by
  obtain ⟨h1, h2⟩ := abs_lt.1 h
  simp [wrap_eq (show -2147483648 ≤ 2 * n by omega) (by omega)]

theorem C70_double_flt (x : XR) : (ℓ 2 * flt x).toX = ℓ 2 * (flt x).toX := by simp

/-- The elliptic solver with an integer mean anomaly or eccentricity is the float solver, as long as `2 * M` and `e**2` fit. -/
theorem C70_solve_elps (M e : JN) (tol : XR) (n : ℕ) (h2 : (ℓ 2 * M).toX = ℓ 2 * M.toX) (he : (e ^ 2).toX = e.toX ^ 2) :
    solve_kepler_elps M e (flt tol) n = (solve_kepler_elps M.toX e.toX tol n).map flt := by
  have hs : elpsStart M e = flt (elpsStart M.toX e.toX) := by
    simp only [elpsStart, sin_jn, h2]; simp [he]
  have := whileLoop_map fltCarry (fun _ => True) (c1 := elpsCond (flt tol) n) (b1 := elpsBody M e)
    (c2 := elpsCond tol n) (b2 := elpsBody M.toX e.toX)
    (fun t _ => by simp [elpsCond, fltCarry]; rfl) (fun t _ => by simp [elpsBody, fltCarry, dE])
    (fun _ _ => trivial) (0, elpsStart M.toX e.toX, elpsStart M.toX e.toX + ℓ 2 * tol) trivial
  have h0 : ((0, elpsStart M e, elpsStart M e + ℓ 2 * flt tol) : Carry JN)
      = fltCarry (0, elpsStart M.toX e.toX, elpsStart M.toX e.toX + ℓ 2 * tol) := by
    rw [hs]; simp [fltCarry]
  rw [solve_kepler_elps, solve_kepler_elps, elpsRun, elpsRun]
  simp only [h0, this, Option.map_map]
  rfl

/-- The hyperbolic solver likewise. -/
theorem C70_solve_hypb (N e : JN) (tol : XR) (n : ℕ) (h2 : (ℓ 2 * N).toX = ℓ 2 * N.toX) :
    solve_kepler_hypb N e (flt tol) n = (solve_kepler_hypb N.toX e.toX tol n).map flt := by
  have hs : hypbStart N e = flt (hypbStart N.toX e.toX) := by
    simp only [hypbStart, div_jn, h2]; simp
  have := whileLoop_map fltCarry (fun _ => True) (c1 := hypbCond N e (flt tol) n) (b1 := hypbBody N e)
    (c2 := hypbCond N.toX e.toX tol n) (b2 := hypbBody N.toX e.toX)
    (fun t _ => by simp [hypbCond, kepler_equ_hypb, fltCarry]; rfl)
    (fun t _ => by simp [hypbBody, kepler_equ_hypb, fltCarry, dH])
    (fun _ _ => trivial) (0, hypbStart N.toX e.toX, hypbStart N.toX e.toX + ℓ 2 * tol) trivial
  have h0 : ((0, hypbStart N e, hypbStart N e + ℓ 2 * flt tol) : Carry JN)
      = fltCarry (0, hypbStart N.toX e.toX, hypbStart N.toX e.toX + ℓ 2 * tol) := by
    rw [hs]; simp [fltCarry]
  rw [solve_kepler_hypb, solve_kepler_hypb, hypbRun, hypbRun]
  simp only [h0, this, Option.map_map]
  rfl

example (e tol : XR) (n : ℕ) : solve_kepler_elps (int 3) (flt e) (flt tol) n =
    (solve_kepler_elps (.fin (3 : ℤ)) e tol n).map flt := C70_solve_elps _ _ _ _ (C70_double (by norm_num)) rfl

/-- Integer mean anomaly and integer eccentricity on a hyperbola. -/
example (tol : XR) (n : ℕ) : solve_kepler_hypb (int 3) (int 2) (flt tol) n =
    (solve_kepler_hypb (.fin (3 : ℤ)) (.fin (2 : ℤ)) tol n).map flt := C70_solve_hypb _ _ _ _ (C70_double (by norm_num))

/-- From `N = 2^30` on `2 * N` wraps: the hyperbolic solver then starts on the wrong side, from the starting value of
`-2^30`. -/
theorem C70_hypb_start_wraps (e : JN) :
    hypbStart (int 1073741824) e = flt (hypbStart (.fin ((-1073741824 : ℤ) : ℝ)) e.toX) := by
  have h : wrap 2147483648 = -2147483648 := by decide
  simp [hypbStart]
  norm_num [h]

/-- The starting value for a whole eccentricity 2 in exact arithmetic. -/
theorem hypbStart_fin {N : ℝ} (h : 0 < N + Real.sqrt (N ^ 2 + 1)) :
    hypbStart (XR.fin N) (.fin 2) = .fin (Real.log (N + Real.sqrt (N ^ 2 + 1))) := by
  have h2 : (ℓ 2 * XR.fin N / XR.fin 2 : XR) = .fin N := by
    rw [XR.cast_fin, XR.fin_mul, XR.fin_div _ two_ne_zero]; norm_num
  rw [hypbStart, h2, XR.cast_fin, XR.fin_pow, XR.fin_add, XR.sqrt_fin (by positivity), XR.fin_add, Nat.cast_one, XR.log_fin h]

/-- With no iteration allowed the starting value is the result: it is negative for the integer `2^30`, positive for the float. -/
theorem C70_hypb_start_wrong (tol : XR) : ∃ x y : ℝ, x < 0 ∧ 0 < y ∧
    solve_kepler_hypb (int 1073741824) (ff 2) (flt tol) 0 = some (ff x) ∧
    solve_kepler_hypb (ff 1073741824) (ff 2) (flt tol) 0 = some (ff y) := by
  obtain ⟨S, hS⟩ : ∃ S, S = Real.sqrt ((1073741824 : ℝ) ^ 2 + 1) := ⟨_, rfl⟩
  have hs : 1073741824 < S := hS ▸ Real.lt_sqrt_of_sq_lt (by norm_num)
  have hs2 : S < 1073741824 + 1 / 2 := by rw [hS, Real.sqrt_lt' (by norm_num)]; norm_num
  have h0 : ∀ N : JN, solve_kepler_hypb N (ff 2) (flt tol) 0 = some (hypbStart N (ff 2)) := by
    intro N
    rw [solve_kepler_hypb, hypbRun, whileLoop]; simp [hypbCond]
  have hm : Real.sqrt ((-1073741824 : ℝ) ^ 2 + 1) = S := by rw [neg_sq, hS]
  refine ⟨Real.log (-1073741824 + S), Real.log (1073741824 + S), Real.log_neg (by linarith) (by linarith),
    Real.log_pos (by linarith), ?_, ?_⟩
  · have := hypbStart_fin (N := -1073741824) (by rw [hm]; linarith)
    rw [hm] at this
    rw [h0, C70_hypb_start_wraps]
    push_cast
    exact congrArg (fun x => some (flt x)) this
  · have := hypbStart_fin (N := 1073741824) (by rw [← hS]; linarith)
    rw [← hS] at this
    rw [h0]
    refine Eq.trans ?_ (congrArg (fun x => some (flt x)) this)
    simp [hypbStart, ff]

/-- The universal functions the solver uses, at a float `chi`. -/
theorem ufunc_jn (x : XR) (a : JN) (hn : (-a).toX = -a.toX) :
    ufunc0 (flt x) a = flt (ufunc0 x a.toX) ∧ ufunc1 (flt x) a = flt (ufunc1 x a.toX) ∧
    ufunc2 (flt x) a = flt (ufunc2 x a.toX) ∧ ufunc3 (flt x) a = flt (ufunc3 x a.toX) := by
  refine ⟨?_, ?_, ?_, ?_⟩
  · simp only [ufunc0]; split_ifs <;> simp_all
  · simp only [ufunc1]; split_ifs <;> simp_all
  · simp only [ufunc2]; split_ifs <;> simp_all
  · simp only [ufunc3]; split_ifs <;> simp_all

/-- The universal solver is transparent in all its physical arguments: time, `alpha`, distance, `sigma0` and `mu` may be
integers. The only exception is `alpha = -2^31`, which has no negative in `int32`. -/
theorem C70_solve_uni (t a r s mu : JN) (tol : XR) (n : ℕ) (hn : (-a).toX = -a.toX)
    (ha : (JFun.abs a).toX = JFun.abs a.toX) :
    solve_kepler_uni t a r s mu (flt tol) n = (solve_kepler_uni t.toX a.toX r.toX s.toX mu.toX tol n).map flt := by
  have hk : ∀ x : XR, kepler_equ_uni (flt x) a r s t mu = flt (kepler_equ_uni x a.toX r.toX s.toX t.toX mu.toX) := by
    intro x
    obtain ⟨h0, h1, h2, h3⟩ := ufunc_jn x a hn
    simp [kepler_equ_uni, h1, h2, h3]
  have hd : ∀ x : XR, dchi (flt x) a r s = flt (dchi x a.toX r.toX s.toX) := by
    intro x
    obtain ⟨h0, h1, h2, h3⟩ := ufunc_jn x a hn
    simp [dchi, equ_of_orb_uvi, h0, h1, h2]
  have := whileLoop_map fltCarry (fun _ => True) (c1 := uniCond t a r s mu (flt tol) n) (b1 := uniBody t a r s mu)
    (c2 := uniCond t.toX a.toX r.toX s.toX mu.toX tol n) (b2 := uniBody t.toX a.toX r.toX s.toX mu.toX)
    (fun c _ => by simp [uniCond, fltCarry, hk]; rfl)
    (fun c _ => by simp [uniBody, fltCarry, hk, hd])
    (fun _ _ => trivial) (uniInit t.toX a.toX mu.toX tol) trivial
  have h0 : uniInit t a mu (flt tol) = fltCarry (uniInit t.toX a.toX mu.toX tol) := by
    simp [uniInit, fltCarry, uniStart, ha]
  rw [solve_kepler_uni, solve_kepler_uni, uniRun, uniRun, h0, this, Option.map_map, Option.map_map]
  rfl

theorem C70_neg_abs {n : ℤ} (h : |n| < 2147483648) :
    (-int n).toX = -(int n).toX ∧ (JFun.abs (int n)).toX = JFun.abs (int n).toX := by
  obtain ⟨h1, h2⟩ := abs_lt.1 h
  have h3 := abs_nonneg n
  simp [wrap_eq (show -2147483648 ≤ -n by omega) (by omega), wrap_eq (show -2147483648 ≤ |n| by omega) h]

/-- All arguments whole numbers: a unit circular orbit, one time unit. -/
example : solve_kepler_uni (int 1) (int 1) (int 1) (int 0) (int 1) (flt defaultTol) 50 =
    (solve_kepler_uni (.fin (1 : ℤ)) (.fin (1 : ℤ)) (.fin (1 : ℤ)) (.fin (0 : ℤ)) (.fin (1 : ℤ)) defaultTol 50).map flt :=
  C70_solve_uni _ _ _ _ _ _ _ (C70_neg_abs (by norm_num)).1 (C70_neg_abs (by norm_num)).2

/-! ### Type errors of `jax.lax.cond` -/

/-- `jax.lax.cond(p, t, f)` traces both branches and raises `TypeError` (`none`) unless their dtypes agree. -/
noncomputable def tcond (p : Bool) (t f : JN) : Option JN :=
  if t.isFloat = f.isFloat then some (if p then t else f) else none

/-- The nested `cond` of every `ufuncN`, _uniformulas.py:94-102 ff., given the three branch results. -/
noncomputable def ucond (alpha t f g : JN) : Option JN :=
  (tcond (JFun.lt alpha (ℓ 0)) f g).bind fun i => tcond (JFun.lt (ℓ 0) alpha) t i

/-- `ufunc0` with dtypes, _uniformulas.py:94-102. -/
noncomputable def tufunc0 (chi alpha : JN) : Option JN :=
  ucond alpha (JFun.cos (JFun.sqrt alpha * chi)) (JFun.cosh (JFun.sqrt (-alpha) * chi)) (JFun.onesLike chi)

/-- `ufunc1` with dtypes, _uniformulas.py:146-154. -/
noncomputable def tufunc1 (chi alpha : JN) : Option JN :=
  ucond alpha (JFun.sin (JFun.sqrt alpha * chi) / JFun.sqrt alpha)
    (JFun.sinh (JFun.sqrt (-alpha) * chi) / JFun.sqrt (-alpha)) chi

/-- `ufunc2` with dtypes, _uniformulas.py:198-206. -/
noncomputable def tufunc2 (chi alpha : JN) : Option JN :=
  ucond alpha ((ℓ 1 - JFun.cos (JFun.sqrt alpha * chi)) / alpha)
    ((JFun.cosh (JFun.sqrt (-alpha) * chi) - ℓ 1) / -alpha) (chi ^ 2 / ℓ 2)

/-- `ufunc3` with dtypes, _uniformulas.py:250-262. -/
noncomputable def tufunc3 (chi alpha : JN) : Option JN :=
  ucond alpha ((JFun.sqrt alpha * chi - JFun.sin (JFun.sqrt alpha * chi)) / alpha / JFun.sqrt alpha)
    ((JFun.sqrt (-alpha) * chi - JFun.sinh (JFun.sqrt (-alpha) * chi)) / alpha / JFun.sqrt (-alpha)) (chi ^ 3 / ℓ 6)

/-- `ufunc0` and `ufunc1` refuse an integer `chi`, whatever `alpha`, also on branches that would be fine. -/
theorem C70_ufunc_int_error (n : ℤ) (alpha : JN) :
    tufunc0 (int n) alpha = none ∧ tufunc1 (int n) alpha = none := by
  constructor <;> simp [tufunc0, tufunc1, ucond, tcond, isFloat]

/-- With a float `chi` there is never an error, and the result is that of the untyped model. -/
theorem C70_ufunc_flt_ok (x : XR) (alpha : JN) :
    tufunc0 (flt x) alpha = some (ufunc0 (flt x) alpha) ∧ tufunc1 (flt x) alpha = some (ufunc1 (flt x) alpha) := by
  constructor <;> simp [tufunc0, tufunc1, ucond, tcond, isFloat, ufunc0, ufunc1] <;> split_ifs <;> rfl

/-- `ufunc2` and `ufunc3` accept any dtypes. -/
theorem C70_ufunc23_ok (chi alpha : JN) :
    tufunc2 chi alpha = some (ufunc2 chi alpha) ∧ tufunc3 chi alpha = some (ufunc3 chi alpha) := by
  constructor <;> simp [tufunc2, tufunc3, ucond, tcond, isFloat, ufunc2, ufunc3] <;> split_ifs <;> rfl

/-- Consequence: `kepler_equ_uni` at an integer `chi` is a `TypeError`, since `ufunc1` is. -/
noncomputable def tkepler_equ_uni (chi alpha r0 sigma0 deltat mu : JN) : Option JN := do
  let u1 ← tufunc1 chi alpha
  let u2 ← tufunc2 chi alpha
  let u3 ← tufunc3 chi alpha
  return r0 * u1 + sigma0 * u2 + u3 - JFun.sqrt mu * deltat

theorem C70_kepler_equ_uni (chi alpha r0 sigma0 deltat mu : JN) :
    tkepler_equ_uni chi alpha r0 sigma0 deltat mu =
      if chi.isFloat then some (kepler_equ_uni chi alpha r0 sigma0 deltat mu) else none := by
  obtain ⟨h2, h3⟩ := C70_ufunc23_ok chi alpha
  cases chi with
  | int n => simp [tkepler_equ_uni, (C70_ufunc_int_error n alpha).2, isFloat]
  | flt x =>
    rw [tkepler_equ_uni, (C70_ufunc_flt_ok x alpha).2, h2, h3]
    simp [isFloat, kepler_equ_uni]

end Adx
