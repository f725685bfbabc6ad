import Verif.Props.C48
import Verif.Props.C10
import Verif.Props.C26

/-! # C48, continued: root searches, orbital elements, propagation, accelerations -/

namespace Adx
open XR

/-! ### the root searches -/

/-- A loop over embedded carries is the embedded loop, as long as an invariant keeps the embedding
valid. -/
theorem whileLoop_map {σ τ : Type} (φ : τ → σ) (I : τ → Prop) {c1 : σ → Bool} {b1 : σ → σ}
    {c2 : τ → Bool} {b2 : τ → τ} (hc : ∀ t, I t → c1 (φ t) = c2 t)
    (hb : ∀ t, I t → b1 (φ t) = φ (b2 t)) (hI : ∀ t, I t → I (b2 t)) (t : τ) (h : I t) :
    whileLoop c1 b1 (φ t) = (whileLoop c2 b2 t).map φ := by
  have hit : ∀ k, b1^[k] (φ t) = φ (b2^[k] t) ∧ I (b2^[k] t) := by
    intro k
    induction k with
    | zero => exact ⟨rfl, h⟩
    | succ k ih =>
      rw [Function.iterate_succ_apply', Function.iterate_succ_apply', ih.1]
      exact ⟨hb _ ih.2, hI _ ih.2⟩
  cases h2 : whileLoop c2 b2 t with
  | none =>
    rw [whileLoop_eq_none_iff] at h2
    rw [Option.map_none, whileLoop_eq_none_iff]
    intro k
    rw [(hit k).1, hc _ (hit k).2, h2 k]
  | some t' =>
    obtain ⟨k, rfl, hf, hj⟩ := ((whileLoop_eq_some_iff _ _ _ _).1 h2).exists_iterate
    rw [Option.map_some, ← (hit k).1]
    refine whileLoop_of_iterate _ _ k _ (fun j hjk => ?_) ?_
    · rw [(hit j).1, hc _ (hit j).2, hj j hjk]
    · rw [(hit k).1, hc _ (hit k).2, hf]

/-- The carry with finite anomalies. -/
noncomputable def finCarry (c : Carry ℝ) : Carry XR := (c.1, fin c.2.1, fin c.2.2)

/-- `solve_kepler_elps` is finite, and equal to the exact-arithmetic result, for all finite inputs
with `|e| < 1`: no iterate is ever NaN or infinite. -/
theorem C48_solve_elps (M e tol : ℝ) (he : |e| < 1) (n : ℕ) :
    solve_kepler_elps (fin M) (fin e) (fin tol) n = (solve_kepler_elps M e tol n).map fin := by
  have hd : ∀ E : ℝ, dE E e ≠ 0 := by
    intro E
    have h1 := Real.abs_cos_le_one E
    have h2 : |e * Real.cos E| < 1 := by
      rw [abs_mul]; nlinarith [abs_nonneg e, abs_nonneg (Real.cos E)]
    have := (abs_lt.1 h2).2
    simp only [dE, Nat.cast_one, cos_real]
    intro h; linarith
  have hs : elpsStart (fin M) (fin e) = fin (elpsStart M e) := by
    simp only [elpsStart, cast_fin, fin_mul, fin_pow, sin_fin, fin_add, fin_div_lit, sin_real]
  have : elpsRun (fin M) (fin e) (fin tol) n = (elpsRun M e tol n).map finCarry := by
    have h := whileLoop_map finCarry (fun _ => True) (c1 := elpsCond (fin tol) n)
      (b1 := elpsBody (fin M) (fin e)) (c2 := elpsCond tol n) (b2 := elpsBody M e)
      (fun t _ => by simp only [elpsCond, finCarry, fin_sub, abs_fin, lt_fin, abs_real, lt_real]; rfl) (fun t _ => ?_) (fun _ _ => trivial)
      (0, elpsStart M e, elpsStart M e + ((2 : ℕ) : ℝ) * tol) trivial
    · rw [elpsRun, elpsRun, ← h, hs]; rfl
    · simp only [elpsBody, finCarry, (C48_kepler_equ _ e M).2.1, sin_fin, fin_mul, fin_sub,
        fin_div _ (hd _), sin_real]
  rw [solve_kepler_elps, solve_kepler_elps, this, Option.map_map, Option.map_map]
  rfl

/-- `solve_kepler_hypb` is finite, and equal to the exact-arithmetic result, for all finite inputs with
`e > 1`. -/
theorem C48_solve_hypb (N e tol : ℝ) (he : 1 < e) (n : ℕ) :
    solve_kepler_hypb (fin N) (fin e) (fin tol) n = (solve_kepler_hypb N e tol n).map fin := by
  have hd : ∀ H : ℝ, dH H e ≠ 0 := fun H => by
    have := dH_ge (by linarith : 0 ≤ e) H
    intro h; linarith
  have hs : hypbStart (fin N) (fin e) = fin (hypbStart N e) := by
    have h0 : e ≠ 0 := by linarith
    have h1 : 0 ≤ (((2 : ℕ) : ℝ) * N / e) ^ 2 + ((1 : ℕ) : ℝ) := by positivity
    have h2 : 0 < ((2 : ℕ) : ℝ) * N / e + Real.sqrt ((((2 : ℕ) : ℝ) * N / e) ^ 2 + ((1 : ℕ) : ℝ)) := by
      set y := ((2 : ℕ) : ℝ) * N / e
      have : |y| < Real.sqrt (y ^ 2 + ((1 : ℕ) : ℝ)) := by
        rw [← Real.sqrt_sq_eq_abs]
        exact Real.sqrt_lt_sqrt (sq_nonneg _) (by simp)
      linarith [neg_abs_le y]
    simp only [hypbStart, cast_fin, fin_mul, fin_div _ h0, fin_pow, fin_add, sqrt_fin h1, log_fin h2,
      log_real, sqrt_real]
  have : hypbRun (fin N) (fin e) (fin tol) n = (hypbRun N e tol n).map finCarry := by
    have h := whileLoop_map finCarry (fun _ => True) (c1 := hypbCond (fin N) (fin e) (fin tol) n)
      (b1 := hypbBody (fin N) (fin e)) (c2 := hypbCond N e tol n) (b2 := hypbBody N e)
      (fun t _ => ?_) (fun t _ => ?_) (fun _ _ => trivial)
      (0, hypbStart N e, hypbStart N e + ((2 : ℕ) : ℝ) * tol) trivial
    · rw [hypbRun, hypbRun, ← h, hs]; rfl
    · simp only [hypbCond, finCarry, (C48_kepler_equ _ e N).2.2.1, abs_fin, lt_fin, abs_real, lt_real]
      rfl
    · simp only [hypbBody, finCarry, (C48_kepler_equ _ e N).2.2.1, (C48_kepler_equ _ e N).2.2.2,
        fin_sub, fin_div _ (hd _)]
  rw [solve_kepler_hypb, solve_kepler_hypb, this, Option.map_map, Option.map_map]
  rfl

/-- `solve_kepler_uni` is finite, and equal to the exact-arithmetic result, whenever the radius
`dchi` vanishes nowhere (true for every state that is not rectilinear, `C12_radius_bound`). -/
theorem C48_solve_uni (t alpha r0 s0 mu tol : ℝ) (hmu : 0 ≤ mu)
    (hd : ∀ chi, dchi chi alpha r0 s0 ≠ 0) (n : ℕ) :
    solve_kepler_uni (fin t) (fin alpha) (fin r0) (fin s0) (fin mu) (fin tol) n
      = (solve_kepler_uni t alpha r0 s0 mu tol n).map fin := by
  have hk : ∀ chi, kepler_equ_uni (fin chi) (fin alpha) (fin r0) (fin s0) (fin t) (fin mu)
      = fin (kepler_equ_uni chi alpha r0 s0 t mu) := fun chi =>
    (C48_kepler_equ_uni chi alpha r0 s0 0 t mu hmu).1
  have hk' : ∀ chi, dchi (fin chi) (fin alpha) (fin r0) (fin s0) = fin (dchi chi alpha r0 s0) :=
    fun chi => (C48_kepler_equ_uni chi alpha r0 s0 0 t mu hmu).2.1
  have hi : uniInit (fin t) (fin alpha) (fin mu) (fin tol) = finCarry (uniInit t alpha mu tol) := by
    simp only [uniInit, finCarry, uniStart, sqrt_fin hmu, abs_fin, fin_mul, cast_fin, fin_add,
      sqrt_real, abs_real]
  have : uniRun (fin t) (fin alpha) (fin r0) (fin s0) (fin mu) (fin tol) n
      = (uniRun t alpha r0 s0 mu tol n).map finCarry := by
    have h := whileLoop_map finCarry (fun _ => True)
      (c1 := uniCond (fin t) (fin alpha) (fin r0) (fin s0) (fin mu) (fin tol) n)
      (b1 := uniBody (fin t) (fin alpha) (fin r0) (fin s0) (fin mu))
      (c2 := uniCond t alpha r0 s0 mu tol n) (b2 := uniBody t alpha r0 s0 mu)
      (fun t _ => ?_) (fun t _ => ?_) (fun _ _ => trivial) (uniInit t alpha mu tol) trivial
    · rw [uniRun, uniRun, ← h, hi]
    · simp only [uniCond, finCarry, hk, abs_fin, lt_fin, abs_real, lt_real]
      rfl
    · simp only [uniBody, finCarry, hk, hk', fin_sub, fin_div _ (hd _)]
  rw [solve_kepler_uni, solve_kepler_uni, this, Option.map_map, Option.map_map]
  rfl

/-- Outside the domain: `e = 1`, `M = 0` (the parabolic limit) gives NaN from finite inputs, for every
tolerance `> 0` and iteration limit `≥ 1`. -/
theorem C48_solve_elps_parabolic (tol : ℝ) (htol : 0 < tol) (n : ℕ) (hn : 1 ≤ n) :
    solve_kepler_elps (fin 0) (fin 1) (fin tol) n = some nan := by
  have hs : elpsStart (fin 0) (fin 1) = fin 0 := by
    simp only [elpsStart, cast_fin, fin_mul, fin_pow, sin_fin, fin_add, fin_div_lit]
    simp
  have h1 : (newtonElps (fin 0) (fin 1)) (fin 0) = nan := by
    simp [newtonElps, kepler_equ_elps, dE]
  obtain ⟨k, hk, -, h, hlt, hge⟩ := C13_elps (fin 0) (fin 1) (fin tol) n
  rw [hs] at h hlt hge
  rcases k with _ | _ | k
  · have := hge (by omega)
    simp only [Function.iterate_zero, id_eq, prevOf, cast_fin, fin_mul, fin_add, fin_sub, abs_fin,
      lt_fin, decide_eq_false_iff_not, not_lt] at this
    rw [zero_add, zero_sub, abs_neg, abs_of_pos (by push_cast; linarith)] at this
    push_cast at this
    linarith
  · rw [h]
    simp [h1]
  · have := hlt 1 (by omega)
    simp only [Function.iterate_one, h1, nan_sub, abs_nan, lt_nan] at this
    cases this

/-- A NaN mean anomaly or eccentricity comes out as NaN, without a single iteration. -/
theorem C48_solve_elps_nan (a : XR) (tol : XR) (n : ℕ) :
    solve_kepler_elps nan a tol n = some nan ∧ solve_kepler_elps a nan tol n = some nan := by
  have h1 : elpsStart nan a = nan := by simp [elpsStart]
  have h2 : elpsStart a nan = nan := by simp [elpsStart]
  constructor
  · obtain ⟨k, hk, -, h, hlt, -⟩ := C13_elps nan a tol n
    rcases k with _ | k
    · rw [h, h1]; rfl
    · have := hlt 0 (by omega)
      simp [h1, prevOf] at this
  · obtain ⟨k, hk, -, h, hlt, -⟩ := C13_elps a nan tol n
    rcases k with _ | k
    · rw [h, h2]; rfl
    · have := hlt 0 (by omega)
      simp [h2, prevOf] at this

/-! ### `_kepler.py` -/

theorem defaultTol_fin : (defaultTol : XR) = fin defaultTol := by
  simp only [defaultTol, cast_fin, fin_div_lit]

/-- `kepler` is finite, and equal to the exact-arithmetic result, for every state that is not
rectilinear, every finite time list and every `μ > 0`, parabolas included: no theorem about `kepler`
over the reals rests on a division by zero. -/
theorem C48_kepler (ts : List ℝ) (r v : V3 ℝ) (mu : ℝ) (hmu : 0 < mu)
    (hh : angular_momentum r v ≠ ⟨0, 0, 0⟩) :
    kepler (ts.map fin) (vec r) (vec v) (fin mu)
      = (kepler ts r v mu).map (fun rv => (rv.1.map vec, rv.2.map vec)) := by
  have hr0 : V3.norm r ≠ 0 := by
    intro h
    rw [V3.norm_eq_zero] at h
    apply hh
    subst h
    simp [angular_momentum, V3.cross]
  set α := 1 / semimajor_axis (V3.norm r) (V3.norm v) mu with hα
  have hα' : α = 2 / V3.norm r - V3.norm v ^ 2 / mu := by
    simp [hα, semimajor_axis]
  have hd : ∀ chi, dchi chi α (V3.norm r) (sigma_fn r v mu) ≠ 0 := by
    intro chi h
    obtain ⟨m, hm, hb⟩ := C12_derivative hmu hh 0
    have := (hb chi).2
    rw [← hα] at this
    change m ≤ dchi chi α (V3.norm r) (sigma_fn r v mu) at this
    linarith
  have hrow : ∀ t, keplerRow (vec r) (vec v) (fin mu) (fin t)
      = (vec (keplerRow r v mu t).1, vec (keplerRow r v mu t).2) := by
    intro t
    have hc : chiOf (fin t) (fin α) (fin (V3.norm r)) (fin (sigma_fn r v mu)) (fin mu)
        = fin (chiOf t α (V3.norm r) (sigma_fn r v mu) mu) := by
      have h := C48_solve_uni t α (V3.norm r) (sigma_fn r v mu) mu defaultTol hmu.le hd 50
      rw [← defaultTol_fin, solve_eq_chiOf, solve_eq_chiOf, Option.map_some] at h
      exact Option.some.inj h
    have e1 : ((1 : ℕ) : XR) / semimajor_axis (fin (V3.norm r)) (fin (V3.norm v)) (fin mu) = fin α := by
      rw [C48_alpha _ _ _ hmu.ne' hr0, hα']
    have e2 : ((1 : ℕ) : ℝ) / semimajor_axis (V3.norm r) (V3.norm v) mu = α := by
      rw [hα, Nat.cast_one]
    simp only [keplerRow, item_xr, item_real, vec_norm, (C48_sigma_fn r v mu).1 hmu, e1, e2, hc]
    set χ := chiOf t α (V3.norm r) (sigma_fn r v mu) mu
    obtain ⟨u0, u1, u2, -, -, -⟩ := C48_ufunc χ α
    have hrad : equ_of_orb_uvi (ufunc0 χ α) (ufunc1 χ α) (ufunc2 χ α) (V3.norm r) (sigma_fn r v mu) ≠ 0 :=
      hd χ
    obtain ⟨l1, l2, l3, l4⟩ := C48_lagrange (ufunc1 χ α) (ufunc2 χ α) (sigma_fn r v mu) _ (V3.norm r) mu
      hrad hr0 hmu
    simp only [keplerStep, u0, u1, u2, C48_equ_of_orb_uvi, l1, l2, l3, l4, lagrange_prop, vec_smul,
      vec_add]
  rw [kepler_eq_map, kepler_eq_map]
  simp only [List.map_map, Option.map_some, Function.comp_def, hrow]

/-! ### `_rot_mat.py`, `_orb_elements.py` -/

/-- The rotation matrices are finite for every finite angle. -/
theorem C48_rotmat (x : ℝ) :
    rotmat3dx (fin x) = mat (rotmat3dx x) ∧ rotmat3dy (fin x) = mat (rotmat3dy x) ∧
    rotmat3dz (fin x) = mat (rotmat3dz x) := ⟨rfl, rfl, rfl⟩

theorem wrapNeg_fin (x : ℝ) : wrapNeg (fin x) = fin (wrapNeg x) := by
  simp only [wrapNeg, cast_fin, lt_fin, lt_real, pi_fin, fin_mul, fin_add, pi_real]
  exact (apply_ite fin _ _ _).symm

/-- `inclination`: finite for `h ≠ 0`, NaN for a rectilinear state. -/
theorem C48_inclination (h : V3 ℝ) :
    (h ≠ ⟨0, 0, 0⟩ → inclination (vec h) = fin (inclination h)) ∧
    inclination (vec ⟨0, 0, 0⟩) = nan := by
  constructor
  · intro hh
    have hn : 0 < V3.norm h := (V3.norm_pos h).2 hh
    have hz : |h.z| ≤ V3.norm h := by
      have   := V3.abs_dot_le h ⟨0, 0, 1⟩
      simpa [V3.dot, V3.norm] using this
    rw [abs_le] at hz
    simp only [inclination, vec_z, vec_norm, fin_div _ hn.ne', arccos_real]
    exact arccos_fin (by rw [le_div_iff₀ hn]; linarith [hz.1]) (by rw [div_le_iff₀ hn]; linarith [hz.2])
  · have h0 : V3.norm (⟨0, 0, 0⟩ : V3 ℝ) = 0 := by simp [V3.norm, V3.dot]
    simp [inclination, h0]

/-- The angles computed with `arctan2` are finite for every finite input (`0` when undefined). -/
theorem C48_angles (r e n : V3 ℝ) :
    true_anomaly (vec r) (vec e) = fin (true_anomaly r e) ∧
    node_vec (vec n) = vec (node_vec n) ∧
    right_ascension (vec n) = fin (right_ascension n) ∧
    argument_of_periapsis (vec n) (vec e) = fin (argument_of_periapsis n e) := by
  refine ⟨?_, ?_, ?_, ?_⟩
  · simp only [true_anomaly, vec_cross, vec_norm, vec_dot, arctan2_fin, wrapNeg_fin, arctan2_real]
  · simp only [node_vec, cast_fin, vec_mk, vec_cross]
  · simp only [right_ascension, vec_x, vec_y, arctan2_fin, wrapNeg_fin, arctan2_real]
  · simp only [argument_of_periapsis, vec_cross, vec_norm, vec_dot, arctan2_fin, wrapNeg_fin,
      arctan2_real]

/-- Finite orbital elements. -/
noncomputable def finCOE (c : COE ℝ) : COE XR :=
  ⟨fin c.p, fin c.e, fin c.incl, fin c.raan, fin c.argp, fin c.true_anom⟩

/-- `rv2coe`: all six elements are finite for every state with `h ≠ 0`; for a rectilinear state with
`r ≠ 0` exactly the inclination is NaN. -/
theorem C48_rv2coe (r v : V3 ℝ) (mu : ℝ) (hmu : mu ≠ 0) :
    (angular_momentum r v ≠ ⟨0, 0, 0⟩ →
      rv2coe (vec r) (vec v) (fin mu) = finCOE (rv2coe r v mu)) ∧
    (angular_momentum r v = ⟨0, 0, 0⟩ → r ≠ ⟨0, 0, 0⟩ →
      rv2coe (vec r) (vec v) (fin mu) = { finCOE (rv2coe r v mu) with incl := nan }) := by
  have key : r ≠ ⟨0, 0, 0⟩ → eccentricity_vector (vec r) (vec v) (fin mu)
      = vec (eccentricity_vector r v mu) := fun hr =>
    (C48_eccentricity_vector r v mu hmu).1 ((V3.norm_pos r).2 hr).ne'
  constructor
  · intro hh
    have hr : r ≠ ⟨0, 0, 0⟩ := by
      rintro rfl; apply hh; simp [angular_momentum, V3.cross]
    simp only [rv2coe, finCOE, C48_angular_momentum, key hr, vec_norm,
      (C48_semiparameter _ mu).1 hmu, (C48_inclination _).1 hh, (C48_angles r _ ⟨0, 0, 0⟩).1,
      (C48_angles r ⟨0, 0, 0⟩ _).2.1, (C48_angles r ⟨0, 0, 0⟩ _).2.2.1, (C48_angles r _ _).2.2.2]
  · intro hh hr
    simp only [rv2coe, finCOE, C48_angular_momentum, key hr, vec_norm,
      (C48_semiparameter _ mu).1 hmu, (C48_angles r _ ⟨0, 0, 0⟩).1,
      (C48_angles r ⟨0, 0, 0⟩ _).2.1, (C48_angles r ⟨0, 0, 0⟩ _).2.2.1, (C48_angles r _ _).2.2.2]
    rw [hh, (C48_inclination ⟨0, 0, 0⟩).2]

/-- `coe2rv`: finite off the asymptotes for `p ≠ 0`, `μ/p ≥ 0`. -/
theorem C48_coe2rv (p e i O w f mu : ℝ) (hp : p ≠ 0) (hm : 0 ≤ mu / p) (hf : 1 + e * Real.cos f ≠ 0) :
    coe2rv (fin p) (fin e) (fin i) (fin O) (fin w) (fin f) (fin mu)
      = (vec (coe2rv p e i O w f mu).1, vec (coe2rv p e i O w f mu).2) := by
  have h1 : perifocalPos (fin p) (fin e) (fin f) = vec (perifocalPos p e f) := by
    have : ((1 : ℕ) : ℝ) + e * Real.cos f ≠ 0 := by simpa using hf
    simp only [perifocalPos, cast_fin, cos_fin, sin_fin, fin_mul, fin_add, fin_div _ this, vec_mk,
      vec_smul, cos_real, sin_real]
  have h2 : perifocalVel (fin p) (fin e) (fin f) (fin mu) = vec (perifocalVel p e f mu) := by
    simp only [perifocalVel, cast_fin, cos_fin, sin_fin, fin_neg, fin_add, fin_div _ hp, sqrt_fin hm,
      vec_mk, vec_smul, cos_real, sin_real, sqrt_real]
  simp only [coe2rv, perifocalToInertial, h1, h2, (C48_rotmat _).1, (C48_rotmat _).2.2, mat_mul,
    mat_mulVec]

/-! ### `_path_check.py` -/

/-- The path checks on finite vectors give the exact-arithmetic booleans. -/
theorem C48_path_check (r1 v1 r2 : V3 ℝ) (mu : ℝ) (hmu : mu ≠ 0) (hr : r1 ≠ ⟨0, 0, 0⟩) (rmin : ℝ) :
    is_short_way (vec r1) (vec v1) (vec r2) = is_short_way r1 v1 r2 ∧
    pass_perigee (vec r1) (vec v1) (vec r2) (fin mu) = pass_perigee r1 v1 r2 mu ∧
    rp_islower_rmin (fin rmin) (vec r1) (vec v1) (fin mu) = rp_islower_rmin rmin r1 v1 mu := by
  have key := (C48_eccentricity_vector r1 v1 mu hmu).1 ((V3.norm_pos r1).2 hr).ne'
  have h1 : is_short_way (vec r1) (vec v1) (vec r2) = is_short_way r1 v1 r2 := by
    simp only [is_short_way, vec_cross, vec_dot, cast_fin, lt_fin, lt_real]
  refine ⟨h1, ?_, ?_⟩
  · simp only [pass_perigee, key, vec_cross, vec_dot, cast_fin, lt_fin, lt_real, h1]
  · have he : 1 + V3.norm (eccentricity_vector r1 v1 mu) ≠ 0 := by
      have := V3.norm_nonneg (eccentricity_vector r1 v1 mu)
      linarith
    simp only [rp_islower_rmin, C48_angular_momentum, key, vec_norm, (C48_semiparameter _ mu).1 hmu,
      C48_radius_periapsis _ _ he, lt_fin, lt_real]

/-- `nmax_by_periapsis`: finite for a positive mean of the larger radius and `rp_min`, `μ ≥ 0`. -/
theorem C48_nmax (rp r1 r2 tof mu : ℝ) (hmu : 0 ≤ mu) (h : 0 < max r1 r2 + rp) :
    nmax_by_periapsis (fin rp) (fin r1) (fin r2) (fin tof) (fin mu)
      = fin (nmax_by_periapsis rp r1 r2 tof mu) := by
  have h2 : 0 < ((1 : ℕ) : ℝ) / ((2 : ℕ) : ℝ) * (max r1 r2 + rp) := by positivity
  have h3 : (((1 : ℕ) : ℝ) / ((2 : ℕ) : ℝ) * (max r1 r2 + rp)) ^ 3 ≠ 0 := by positivity
  have h4 : ((2 : ℕ) : ℝ) * Real.pi ≠ 0 := by have := Real.pi_pos; positivity
  simp only [nmax_by_periapsis, cast_fin, maximum_fin, fin_add, fin_div_lit, fin_mul, fin_pow, pi_fin,
    fin_div _ h3, fin_div _ h4, floor_fin, maximum_real, pi_real, floor_real, sqrt_real,
    sqrt_fin (div_nonneg hmu (pow_nonneg h2.le 3))]

/-! ### `_state_trans.py` -/

/-- Finite `(6, 6)` matrix. -/
noncomputable def finB6 (b : B6 ℝ) : B6 XR := ⟨mat b.rr, mat b.rv, mat b.vr, mat b.vv⟩

/-- `dxdx0` is finite for `r, r0 ≠ 0`, `μ > 0`, parabolas included. -/
theorem C48_dxdx0 (r v r0 v0 : V3 ℝ) (dt mu : ℝ) (hmu : 0 < mu) (hr : r ≠ ⟨0, 0, 0⟩)
    (hr0 : r0 ≠ ⟨0, 0, 0⟩) :
    dxdx0 (vec r) (vec v) (vec r0) (vec v0) (fin dt) (fin mu) = finB6 (dxdx0 r v r0 v0 dt mu) := by
  have n := ((V3.norm_pos r).2 hr).ne'
  have n0 := ((V3.norm_pos r0).2 hr0).ne'
  have hs := (Real.sqrt_pos.2 hmu).ne'
  set α := ((1 : ℕ) : ℝ) / semimajor_axis (V3.norm r0) (V3.norm v0) mu with hα
  have e1 : ((1 : ℕ) : XR) / semimajor_axis (fin (V3.norm r0)) (fin (V3.norm v0)) (fin mu) = fin α := by
    rw [C48_alpha _ _ _ hmu.ne' n0]; simp [hα, semimajor_axis]
  simp only [dxdx0, vec_norm, e1, (C48_sigma_fn _ _ mu).1 hmu,
    (C48_kepler_equ_uni 0 α 0 _ _ dt mu hmu.le).2.2]
  rw [← hα]
  set χ := generalized_anomaly α (sigma_fn r v mu) (sigma_fn r0 v0 mu) dt mu
  obtain ⟨-, u1, u2, -, u4, u5⟩ := C48_ufunc χ α
  obtain ⟨l1, l2, l3, l4⟩ := C48_lagrange (ufunc1 χ α) (ufunc2 χ α) (sigma_fn r0 v0 mu) _ _ mu
    n n0 hmu
  have hC : C_func (fin χ) (fin (ufunc2 χ α)) (fin (ufunc4 χ α)) (fin (ufunc5 χ α)) (fin dt) (fin mu)
      = fin (C_func χ (ufunc2 χ α) (ufunc4 χ α) (ufunc5 χ α) dt mu) := by
    simp only [C_func, cast_fin, fin_mul, fin_sub, sqrt_fin hmu.le, fin_div _ hs, sqrt_real]
  simp only [u1, u2, u4, u5, hC, l1, l2, l3, l4, finB6]
  have p0 : V3.norm r0 ^ 2 ≠ 0 := pow_ne_zero _ n0
  have p1 : V3.norm r ^ 2 ≠ 0 := pow_ne_zero _ n
  simp only [prpr0, prpv0, pvpr0, pvpv0, vec_norm, cast_fin, fin_sub, fin_mul, fin_pow,
    fin_div _ hmu.ne', fin_div _ p0, fin_div _ p1, vec_sub, vec_div _ n, vec_div _ n0, vec_div _ p0,
    vec_div _ p1, mat_outer, mat_smul, mat_eye, mat_add, mat_sub, mat_neg, mat_mul, mat_div _ hmu.ne',
    mat_div _ n]

/-! ### `gravity/_general.py` -/

/-- A finite state and finite arguments. -/
noncomputable def finState (x : State ℝ) : State XR := ⟨vec x.pos, x.rest.map fin⟩
/-- Finite arguments. -/
noncomputable def finArgs (a : Args ℝ) : Args XR := fun k => (a k).map fin

theorem finArgs_get (a : Args ℝ) (k : String) :
    (finArgs a).get k = (a.get k).map fin := by
  simp only [Args.get, finArgs]
  cases a k <;> rfl

/-- The accelerations are finite at every position other than the origin, and equal to the
exact-arithmetic ones (including which `KeyError` is raised). -/
theorem C48_gravity (t : ℝ) (x : State ℝ) (a : Args ℝ) (hx : x.pos ≠ ⟨0, 0, 0⟩) :
    point_mass_grav (fin t) (finState x) (finArgs a) = (point_mass_grav t x a).map vec ∧
    j2_acc (fin t) (finState x) (finArgs a) = (j2_acc t x a).map vec ∧
    j3_acc (fin t) (finState x) (finArgs a) = (j3_acc t x a).map vec ∧
    j4_acc (fin t) (finState x) (finArgs a) = (j4_acc t x a).map vec ∧
    radius_islow (fin t) (finState x) (finArgs a) = (radius_islow t x a).map fin := by
  have n := ((V3.norm_pos x.pos).2 hx).ne'
  have hn : ∀ k : ℕ, V3.norm x.pos ^ k ≠ 0 := fun k => pow_ne_zero _ n
  refine ⟨?_, ?_, ?_, ?_, ?_⟩
  · simp only [point_mass_grav, finArgs_get]
    cases a.get "mu" with
    | error _ => rfl
    | ok mu =>
      simp only [Except.map, bind, Except.bind, pure, Except.pure, finState, vec_norm, fin_pow,
        fin_div _ (hn _), vec_x, vec_y, vec_z, fin_neg, fin_mul, vec_mk]
  · simp only [j2_acc, finArgs_get]
    rcases a.get "mu" with _ | mu <;> [rfl; rcases a.get "J2" with _ | J <;>
      [rfl; rcases a.get "R_eq" with _ | R <;> [rfl; skip]]]
    simp only [Except.map, bind, Except.bind, pure, Except.pure, finState, vec_norm, fin_pow, cast_fin,
      fin_div_lit, fin_div _ (hn _), fin_div _ n, vec_x, vec_y, vec_z, fin_neg, fin_mul, fin_sub, fin_add, vec_mk]
  · simp only [j3_acc, finArgs_get]
    rcases a.get "mu" with _ | mu <;> [rfl; rcases a.get "J3" with _ | J <;>
      [rfl; rcases a.get "R_eq" with _ | R <;> [rfl; skip]]]
    simp only [Except.map, bind, Except.bind, pure, Except.pure, finState, vec_norm, fin_pow, cast_fin,
      fin_div_lit, fin_div _ (hn _), fin_div _ n, vec_x, vec_y, vec_z, fin_neg, fin_mul, fin_sub, fin_add, vec_mk]
  · simp only [j4_acc, finArgs_get]
    rcases a.get "mu" with _ | mu <;> [rfl; rcases a.get "J4" with _ | J <;>
      [rfl; rcases a.get "R_eq" with _ | R <;> [rfl; skip]]]
    simp only [Except.map, bind, Except.bind, pure, Except.pure, finState, vec_norm, fin_pow, cast_fin,
      fin_div_lit, fin_div _ (hn _), fin_div _ n, vec_x, vec_y, vec_z, fin_neg, fin_mul, fin_sub, fin_add, vec_mk]
  · simp only [radius_islow, finArgs_get]
    cases a.get "rmin" with
    | error _ => rfl
    | ok mu =>
      simp only [Except.map, bind, Except.bind, pure, Except.pure, finState, vec_norm, fin_sub]

/-- At the origin the point-mass acceleration is NaN in every component (`-inf * 0`). -/
theorem C48_gravity_origin (t : XR) (rest : List XR) (a : Args ℝ) (mu : ℝ) (hm : a "mu" = some mu) :
    point_mass_grav t ⟨vec ⟨0, 0, 0⟩, rest⟩ (finArgs a) = .ok ⟨nan, nan, nan⟩ := by
  have h0 : V3.norm (⟨0, 0, 0⟩ : V3 ℝ) = 0 := by simp [V3.norm, V3.dot]
  have hg : (finArgs a).get "mu" = .ok (fin mu) := by simp [Args.get, finArgs, hm]
  simp only [point_mass_grav, hg, bind, Except.bind, pure, Except.pure, vec_norm, h0, fin_pow]
  rw [show (0 : ℝ) ^ 3 = 0 by norm_num, fin_div_zero]
  rcases lt_trichotomy mu 0 with h | rfl | h
  · simp [infOf_neg h]
  · simp
  · simp [infOf_pos h]

/-- Non-trivial instance: a parabolic state (`v² = 2μ/r`) really goes through an infinite semimajor
axis inside `kepler`, and still gives the finite exact result. -/
example : semimajor_axis (V3.norm (vec ⟨2, 0, 0⟩)) (V3.norm (vec ⟨0, 1, 0⟩)) (fin 1) = pinf ∧
    kepler [fin 1] (vec ⟨2, 0, 0⟩) (vec ⟨0, 1, 0⟩) (fin 1)
      = (kepler [1] (⟨2, 0, 0⟩ : V3 ℝ) ⟨0, 1, 0⟩ 1).map (fun rv => (rv.1.map vec, rv.2.map vec)) := by
  constructor
  · have h1 : V3.norm (⟨2, 0, 0⟩ : V3 ℝ) = 2 := by
      simp [V3.norm, V3.dot]
    have h2 : V3.norm (⟨0, 1, 0⟩ : V3 ℝ) = 1 := by simp [V3.norm, V3.dot]
    rw [vec_norm, vec_norm, h1, h2]
    exact (C48_semimajor_axis 2 1 1 (by norm_num)).2.1 (by norm_num) (by norm_num)
  · exact C48_kepler [1] ⟨2, 0, 0⟩ ⟨0, 1, 0⟩ 1 (by norm_num) (by simp [angular_momentum, V3.cross])

end Adx
