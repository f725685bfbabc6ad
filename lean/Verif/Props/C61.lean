import Verif.Model.Dual
import Verif.Model.Kepler
import Verif.Model.OrbElements
import Verif.Model.StateTrans
import Verif.Model.Gravity
import Verif.Model.PathCheck
import Verif.Props.C13
import Verif.Props.C26

/-! # C61: differentiating does not change the computed values

For every function of the library, in every arithmetic (float32 with NaN included), the value part of the
forward-mode evaluation is the ordinary evaluation; for the solvers and `kepler` this includes the number of
iterations made. -/

namespace Adx
variable {α : Type}

/-- The values of a traced vector, matrix, … -/
def V3.vals (v : V3 (Dual α)) : V3 α := ⟨v.x.val, v.y.val, v.z.val⟩
def M3.vals (m : M3 (Dual α)) : M3 α := ⟨m.r0.vals, m.r1.vals, m.r2.vals⟩
def B6.vals (b : B6 (Dual α)) : B6 α := ⟨b.rr.vals, b.rv.vals, b.vr.vals, b.vv.vals⟩
def COE.vals (c : COE (Dual α)) : COE α :=
  ⟨c.p.val, c.e.val, c.incl.val, c.raan.val, c.argp.val, c.true_anom.val⟩
def State.vals (x : State (Dual α)) : State α := ⟨x.pos.vals, x.rest.map Dual.val⟩
def Args.vals (args : Args (Dual α)) : Args α := fun k => (args k).map Dual.val

variable [Add α] [Sub α] [Neg α] [Mul α] [Div α] [Pow α ℕ] [NatCast α] [JFun α]

/-- C61, `_orb_integrals.py`. -/
theorem C61_orb_integrals (a mu P r v p e f h U0 U1 U2 s0 : Dual α) (rv vv : V3 (Dual α)) :
    (orb_period a mu).val = orb_period a.val mu.val ∧
    (a_from_period P mu).val = a_from_period P.val mu.val ∧
    (angular_momentum rv vv).vals = angular_momentum rv.vals vv.vals ∧
    (semimajor_axis r v mu).val = semimajor_axis r.val v.val mu.val ∧
    (eccentricity_vector rv vv mu).vals = eccentricity_vector rv.vals vv.vals mu.val ∧
    (semiparameter h mu).val = semiparameter h.val mu.val ∧
    (mean_motion P).val = mean_motion P.val ∧
    (equ_of_orbit p e f).val = equ_of_orbit p.val e.val f.val ∧
    (equ_of_orb_uvi U0 U1 U2 r s0).val = equ_of_orb_uvi U0.val U1.val U2.val r.val s0.val ∧
    (radius_periapsis p e).val = radius_periapsis p.val e.val ∧
    (radius_apoapsis p e).val = radius_apoapsis p.val e.val ∧
    (semipara_from_ae a e).val = semipara_from_ae a.val e.val ∧
    (a_from_pe p e).val = a_from_pe p.val e.val :=
  ⟨rfl, rfl, rfl, rfl, rfl, rfl, rfl, rfl, rfl, rfl, rfl, rfl, rfl⟩

/-- C61, `_uniformulas.py`. -/
theorem C61_uniformulas (chi alpha mu : Dual α) (rv vv : V3 (Dual α)) :
    (sigma_fn rv vv mu).val = sigma_fn rv.vals vv.vals mu.val ∧
    (ufunc0 chi alpha).val = ufunc0 chi.val alpha.val ∧
    (ufunc1 chi alpha).val = ufunc1 chi.val alpha.val ∧
    (ufunc2 chi alpha).val = ufunc2 chi.val alpha.val ∧
    (ufunc3 chi alpha).val = ufunc3 chi.val alpha.val ∧
    (ufunc4 chi alpha).val = ufunc4 chi.val alpha.val ∧
    (ufunc5 chi alpha).val = ufunc5 chi.val alpha.val := by
  have h : ∀ (a b c : Dual α) (p q : Bool), (if p then a else if q then b else c).val
      = if p then a.val else if q then b.val else c.val := by
    intro a b c p q; cases p <;> cases q <;> rfl
  exact ⟨rfl, h _ _ _ _ _, h _ _ _ _ _, h _ _ _ _ _, h _ _ _ _ _, h _ _ _ _ _, h _ _ _ _ _⟩

/-- C61, `_lagrange.py`. -/
theorem C61_lagrange (U1 U2 s0 r r0 mu : Dual α) :
    (lagrange_F U2 r0).val = lagrange_F U2.val r0.val ∧
    (lagrange_G U1 U2 s0 r0 mu).val = lagrange_G U1.val U2.val s0.val r0.val mu.val ∧
    (lagrange_Ft U1 r r0 mu).val = lagrange_Ft U1.val r.val r0.val mu.val ∧
    (lagrange_Gt U2 r).val = lagrange_Gt U2.val r.val := ⟨rfl, rfl, rfl, rfl⟩

/-- C61, `_kep_equ.py`, the formulas. -/
theorem C61_kep_equ (E e M H N a t mu chi alpha r0 s s0 : Dual α) :
    (kepler_equ_elps E e M).val = kepler_equ_elps E.val e.val M.val ∧ (dE E e).val = dE E.val e.val ∧
    (kepler_equ_hypb H e N).val = kepler_equ_hypb H.val e.val N.val ∧ (dH H e).val = dH H.val e.val ∧
    (mean_anomaly_elps a t mu).val = mean_anomaly_elps a.val t.val mu.val ∧
    (mean_anomaly_hypb a t mu).val = mean_anomaly_hypb a.val t.val mu.val ∧
    (kepler_equ_uni chi alpha r0 s0 t mu).val = kepler_equ_uni chi.val alpha.val r0.val s0.val t.val mu.val ∧
    (dchi chi alpha r0 s0).val = dchi chi.val alpha.val r0.val s0.val ∧
    (generalized_anomaly alpha s s0 t mu).val = generalized_anomaly alpha.val s.val s0.val t.val mu.val := by
  obtain ⟨-, h0, h1, h2, h3, -, -⟩ := C61_uniformulas chi alpha mu (⟨chi, chi, chi⟩ : V3 (Dual α)) ⟨chi, chi, chi⟩
  refine ⟨rfl, rfl, rfl, rfl, rfl, rfl, ?_, ?_, rfl⟩
  · simp only [kepler_equ_uni, ← h1, ← h2, ← h3]; rfl
  · simp only [dchi, ← h0, ← h1, ← h2]; rfl

/-- A loop state and its values. -/
def carryVals (c : Carry (Dual α)) : Carry α := (c.1, c.2.1.val, c.2.2.val)

theorem loop_vals {cond : Carry (Dual α) → Bool} {body : Carry (Dual α) → Carry (Dual α)}
    {cond' : Carry α → Bool} {body' : Carry α → Carry α} {c : Carry (Dual α)}
    (hc : ∀ c, cond c = cond' (carryVals c)) (hb : ∀ c, carryVals (body c) = body' (carryVals c))
    (hs : ∃ c', whileLoop cond body c = some c') :
    (whileLoop cond body c).map carryVals = whileLoop cond' body' (carryVals c) := by
  obtain ⟨c', hc'⟩ := hs
  obtain ⟨d, hd, hr⟩ := whileLoop_simulate (c2 := cond') (b2 := body') (fun c d => carryVals c = d)
    (fun c d h => by rw [hc, h]) (fun c d h => by rw [hb, h]) rfl hc'
  rw [hc', hd, Option.map_some, hr]

/-- C61, the solvers: the same value after the same number of iterations. -/
theorem C61_solvers (M e N t alpha r0 s0 mu tol : Dual α) (n : ℕ) :
    (elpsRun M e tol n).map carryVals = elpsRun M.val e.val tol.val n ∧
    (solve_kepler_elps M e tol n).map Dual.val = solve_kepler_elps M.val e.val tol.val n ∧
    (hypbRun N e tol n).map carryVals = hypbRun N.val e.val tol.val n ∧
    (solve_kepler_hypb N e tol n).map Dual.val = solve_kepler_hypb N.val e.val tol.val n ∧
    (uniRun t alpha r0 s0 mu tol n).map carryVals = uniRun t.val alpha.val r0.val s0.val mu.val tol.val n ∧
    (solve_kepler_uni t alpha r0 s0 mu tol n).map Dual.val
      = solve_kepler_uni t.val alpha.val r0.val s0.val mu.val tol.val n := by
  have h1 : (elpsRun M e tol n).map carryVals = elpsRun M.val e.val tol.val n := by
    obtain ⟨_, _, h, -⟩ := C13_elps M e tol n
    exact loop_vals (c := (0, elpsStart M e, elpsStart M e + ℓ 2 * tol)) (fun _ => rfl) (fun _ => rfl) ⟨_, h⟩
  have h2 : (hypbRun N e tol n).map carryVals = hypbRun N.val e.val tol.val n := by
    obtain ⟨_, _, h, -⟩ := C13_hypb N e tol n
    exact loop_vals (c := (0, hypbStart N e, hypbStart N e + ℓ 2 * tol)) (fun _ => rfl) (fun _ => rfl) ⟨_, h⟩
  have h3 : (uniRun t alpha r0 s0 mu tol n).map carryVals
      = uniRun t.val alpha.val r0.val s0.val mu.val tol.val n := by
    obtain ⟨_, _, h, -⟩ := C13_uni t alpha r0 s0 mu tol n
    refine loop_vals (c := uniInit t alpha mu tol) (fun c => ?_) (fun c => ?_) ⟨_, h⟩
    · obtain ⟨-, -, -, -, -, -, hk, -⟩ := C61_kep_equ c.2.1 c.2.1 c.2.1 c.2.1 c.2.1 c.2.1 t mu c.2.1 alpha r0 s0 s0
      simp only [uniCond, carryVals, ← hk]; rfl
    · obtain ⟨-, -, -, -, -, -, hk, hd, -⟩ :=
        C61_kep_equ c.2.1 c.2.1 c.2.1 c.2.1 c.2.1 c.2.1 t mu c.2.1 alpha r0 s0 s0
      simp only [uniBody, carryVals, ← hk, ← hd]; rfl
  refine ⟨h1, ?_, h2, ?_, h3, ?_⟩
  · rw [solve_kepler_elps, solve_kepler_elps, ← h1, Option.map_map, Option.map_map]; rfl
  · rw [solve_kepler_hypb, solve_kepler_hypb, ← h2, Option.map_map, Option.map_map]; rfl
  · rw [solve_kepler_uni, solve_kepler_uni, ← h3, Option.map_map, Option.map_map]; rfl

/-- C61, `_orb_elements.py`. -/
theorem C61_orb_elements (h r v ev nv : V3 (Dual α)) (p e incl raan argp f mu : Dual α) :
    (inclination h).val = inclination h.vals ∧ (true_anomaly r ev).val = true_anomaly r.vals ev.vals ∧
    (right_ascension nv).val = right_ascension nv.vals ∧
    (argument_of_periapsis nv ev).val = argument_of_periapsis nv.vals ev.vals ∧
    (rv2coe r v mu).vals = rv2coe r.vals v.vals mu.val ∧
    ((coe2rv p e incl raan argp f mu).1.vals, (coe2rv p e incl raan argp f mu).2.vals)
      = coe2rv p.val e.val incl.val raan.val argp.val f.val mu.val := by
  have hw : ∀ x : Dual α, (wrapNeg x).val = wrapNeg x.val := by
    intro x
    have : ∀ (a b : Dual α) (p : Bool), (if p then a else b).val = if p then a.val else b.val := by
      intro a b p; cases p <;> rfl
    exact this _ _ _
  have ht : ∀ r ev : V3 (Dual α), (true_anomaly r ev).val = true_anomaly r.vals ev.vals := fun r ev => hw _
  have hr : ∀ nv : V3 (Dual α), (right_ascension nv).val = right_ascension nv.vals := fun nv => hw _
  have ha : ∀ nv ev : V3 (Dual α), (argument_of_periapsis nv ev).val = argument_of_periapsis nv.vals ev.vals :=
    fun nv ev => hw _
  refine ⟨rfl, ht _ _, hr _, ha _ _, ?_, rfl⟩
  simp only [rv2coe, COE.vals, ht, hr, ha]
  rfl

/-- C61, `_state_trans.py`. -/
theorem C61_state_trans (r v r0 v0 : V3 (Dual α)) (chi F G Ft Gt C U2 U4 U5 t mu : Dual α) :
    (C_func chi U2 U4 U5 t mu).val = C_func chi.val U2.val U4.val U5.val t.val mu.val ∧
    (prpr0 r v r0 v0 F C mu).vals = prpr0 r.vals v.vals r0.vals v0.vals F.val C.val mu.val ∧
    (prpv0 r v r0 v0 F G C mu).vals = prpv0 r.vals v.vals r0.vals v0.vals F.val G.val C.val mu.val ∧
    (pvpr0 r v r0 v0 Ft C mu).vals = pvpr0 r.vals v.vals r0.vals v0.vals Ft.val C.val mu.val ∧
    (pvpv0 r v r0 v0 F Gt C mu).vals = pvpv0 r.vals v.vals r0.vals v0.vals F.val Gt.val C.val mu.val ∧
    (dxdx0 r v r0 v0 t mu).vals = dxdx0 r.vals v.vals r0.vals v0.vals t.val mu.val := by
  have h1 : ∀ r v r0 v0 : V3 (Dual α), ∀ F C mu : Dual α,
    (prpr0 r v r0 v0 F C mu).vals = prpr0 r.vals v.vals r0.vals v0.vals F.val C.val mu.val := fun _ _ _ _ _ _ _ => rfl
  have h2 : ∀ r v r0 v0 : V3 (Dual α), ∀ F G C mu : Dual α,
    (prpv0 r v r0 v0 F G C mu).vals = prpv0 r.vals v.vals r0.vals v0.vals F.val G.val C.val mu.val :=
    fun _ _ _ _ _ _ _ _ => rfl
  have h3 : ∀ r v r0 v0 : V3 (Dual α), ∀ Ft C mu : Dual α,
    (pvpr0 r v r0 v0 Ft C mu).vals = pvpr0 r.vals v.vals r0.vals v0.vals Ft.val C.val mu.val := fun _ _ _ _ _ _ _ => rfl
  have h4 : ∀ r v r0 v0 : V3 (Dual α), ∀ F Gt C mu : Dual α,
    (pvpv0 r v r0 v0 F Gt C mu).vals = pvpv0 r.vals v.vals r0.vals v0.vals F.val Gt.val C.val mu.val :=
    fun _ _ _ _ _ _ _ _ => rfl
  have hu : ∀ chi alpha : Dual α, _ := fun chi alpha => (C61_uniformulas chi alpha mu r v).2
  refine ⟨rfl, h1 _ _ _ _ _ _ _, h2 _ _ _ _ _ _ _ _, h3 _ _ _ _ _ _ _, h4 _ _ _ _ _ _ _ _, ?_⟩
  simp only [dxdx0, B6.vals, h1, h2, h3, h4]
  simp only [C_func, lagrange_F, lagrange_G, lagrange_Ft, lagrange_Gt]
  set chi := generalized_anomaly (ℓ 1 / semimajor_axis r0.norm v0.norm mu) (sigma_fn r v mu) (sigma_fn r0 v0 mu) t mu
    with hchi
  set alpha := ℓ 1 / semimajor_axis r0.norm v0.norm mu with halpha
  have hcv : generalized_anomaly (ℓ 1 / semimajor_axis r0.vals.norm v0.vals.norm mu.val) (sigma_fn r.vals v.vals mu.val)
    (sigma_fn r0.vals v0.vals mu.val) t.val mu.val = chi.val := rfl
  have hav : (ℓ 1 / semimajor_axis r0.vals.norm v0.vals.norm mu.val : α) = alpha.val := rfl
  obtain ⟨-, u1, u2, -, u4, u5⟩ := hu chi alpha
  rw [hcv, hav, ← u1, ← u2, ← u4, ← u5]
  rfl

/-- C61, `gravity`, `events`: also the same `KeyError`s. -/
theorem C61_gravity (t : Dual α) (x : State (Dual α)) (args : Args (Dual α)) :
    (point_mass_grav t x args).map V3.vals = point_mass_grav t.val x.vals args.vals ∧
    (j2_acc t x args).map V3.vals = j2_acc t.val x.vals args.vals ∧
    (j3_acc t x args).map V3.vals = j3_acc t.val x.vals args.vals ∧
    (j4_acc t x args).map V3.vals = j4_acc t.val x.vals args.vals ∧
    (radius_islow t x args).map Dual.val = radius_islow t.val x.vals args.vals := by
  refine ⟨?_, ?_, ?_, ?_, ?_⟩
  · simp only [point_mass_grav, Args.get, Args.vals]
    cases args "mu" <;> rfl
  · simp only [j2_acc, Args.get, Args.vals]
    cases args "mu" <;> cases args "J2" <;> cases args "R_eq" <;> rfl
  · simp only [j3_acc, Args.get, Args.vals]
    cases args "mu" <;> cases args "J3" <;> cases args "R_eq" <;> rfl
  · simp only [j4_acc, Args.get, Args.vals]
    cases args "mu" <;> cases args "J4" <;> cases args "R_eq" <;> rfl
  · simp only [radius_islow, Args.get, Args.vals]
    cases args "rmin" <;> rfl

/-- C61, `_path_check.py`, `utils`. -/
theorem C61_path_check (rp r1 r2 tof mu rmin angle : Dual α) (r v w : V3 (Dual α)) :
    (nmax_by_periapsis rp r1 r2 tof mu).val = nmax_by_periapsis rp.val r1.val r2.val tof.val mu.val ∧
    is_short_way r v w = is_short_way r.vals v.vals w.vals ∧
    pass_perigee r v w mu = pass_perigee r.vals v.vals w.vals mu.val ∧
    rp_islower_rmin rmin r v mu = rp_islower_rmin rmin.val r.vals v.vals mu.val ∧
    (rotmat3dx angle).vals = rotmat3dx angle.val ∧ (rotmat3dy angle).vals = rotmat3dy angle.val ∧
    (rotmat3dz angle).vals = rotmat3dz angle.val := ⟨rfl, rfl, rfl, rfl, rfl, rfl, rfl⟩

theorem chiOf_vals (t alpha r0 s0 mu : Dual α) :
    (chiOf t alpha r0 s0 mu).val = chiOf t.val alpha.val r0.val s0.val mu.val := by
  have h := (C61_solvers t t t t alpha r0 s0 mu defaultTol 50).2.2.2.2.2
  have h' : (solve_kepler_uni t alpha r0 s0 mu).map Dual.val = solve_kepler_uni t.val alpha.val r0.val s0.val mu.val := h
  rw [solve_eq_chiOf, solve_eq_chiOf, Option.map_some, Option.some.injEq] at h'
  exact h'

theorem keplerStep_vals (chi alpha r0 s0 mu : Dual α) (r v : V3 (Dual α)) :
    ((keplerStep chi alpha r0 s0 r v mu).1.vals, (keplerStep chi alpha r0 s0 r v mu).2.vals)
      = keplerStep chi.val alpha.val r0.val s0.val r.vals v.vals mu.val := by
  obtain ⟨-, u0, u1, u2, -⟩ := C61_uniformulas chi alpha mu r v
  simp only [keplerStep, ← u0, ← u1, ← u2]
  rfl

/-- C61, `kepler`. -/
theorem C61_kepler (ts : List (Dual α)) (r v : V3 (Dual α)) (mu : Dual α) :
    (kepler ts r v mu).map (fun o => (o.1.map V3.vals, o.2.map V3.vals))
      = kepler (ts.map Dual.val) r.vals v.vals mu.val := by
  rw [kepler_eq_map, kepler_eq_map, Option.map_some, List.map_map, List.map_map, List.map_map, List.map_map]
  have h : ∀ t : Dual α, ((keplerRow r v mu t).1.vals, (keplerRow r v mu t).2.vals)
      = keplerRow r.vals v.vals mu.val t.val := by
    intro t
    simp only [keplerRow]
    rw [keplerStep_vals, chiOf_vals]
    rfl
  congr 2
  · exact List.map_congr_left fun t _ => congrArg Prod.fst (h t)
  · exact List.map_congr_left fun t _ => congrArg Prod.snd (h t)

end Adx
