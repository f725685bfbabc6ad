import Verif.Props.C63b
import Verif.Props.C65

/-! # C66: differentiating `kepler` with respect to the initial state

`kepler` hands `alpha.item()`, `r0.item()` and `sigma0.item()` to the root search (_kepler.py:100). Under forward-mode
differentiation `.item()` returns the plain number: the root is found, but its dependence on the state is gone, without
an error. The tangents that come out are those of the propagated state at fixed generalized anomaly, not at fixed time. -/

namespace Adx
open Spec V3 Filter Topology

/-! ### A root found from untraced arguments is untraced -/

/-- No tangent: a symbolic zero. -/
def NoTan (d : Dual ℝ) : Prop := d.tan = none

namespace NoTan
variable {a b : Dual ℝ}

theorem cst (x : ℝ) : NoTan (Adx.cst x) := rfl
theorem nat (n : ℕ) : NoTan (n : Dual ℝ) := rfl
theorem item (a : Dual ℝ) : NoTan (JFun.item a) := rfl
theorem add (ha : NoTan a) (hb : NoTan b) : NoTan (a + b) := by
  show Dual.addTan a.tan b.tan = none
  rw [ha, hb]; rfl
theorem neg (ha : NoTan a) : NoTan (-a) := by
  show a.tan.map _ = none
  rw [ha]; rfl
theorem sub (ha : NoTan a) (hb : NoTan b) : NoTan (a - b) := by
  show Dual.addTan a.tan (b.tan.map _) = none
  rw [ha, hb]; rfl
theorem mul (ha : NoTan a) (hb : NoTan b) : NoTan (a * b) := by
  show Dual.addTan (a.tan.map _) (b.tan.map _) = none
  rw [ha, hb]; rfl
theorem div (ha : NoTan a) (hb : NoTan b) : NoTan (a / b) := by
  show Dual.addTan (a.tan.map _) (b.tan.map _) = none
  rw [ha, hb]; rfl
theorem pow (ha : NoTan a) (n : ℕ) : NoTan (a ^ (n + 1)) := by show a.tan.map _ = none; rw [ha]; rfl
theorem sqrt (ha : NoTan a) : NoTan (JFun.sqrt a) := by show a.tan.map _ = none; rw [ha]; rfl
theorem abs (ha : NoTan a) : NoTan (JFun.abs a) := by show a.tan.map _ = none; rw [ha]; rfl
theorem sin (ha : NoTan a) : NoTan (JFun.sin a) := by show a.tan.map _ = none; rw [ha]; rfl
theorem cos (ha : NoTan a) : NoTan (JFun.cos a) := by show a.tan.map _ = none; rw [ha]; rfl
theorem sinh (ha : NoTan a) : NoTan (JFun.sinh a) := by show a.tan.map _ = none; rw [ha]; rfl
theorem cosh (ha : NoTan a) : NoTan (JFun.cosh a) := by show a.tan.map _ = none; rw [ha]; rfl
theorem onesLike : NoTan (JFun.onesLike a) := rfl
theorem ite {c : Prop} [Decidable c] (ha : NoTan a) (hb : NoTan b) : NoTan (if c then a else b) := by
  split_ifs <;> assumption

theorem eq (ha : NoTan a) {x : ℝ} (h : a.val = x) : a = Adx.cst x := Dual.ext h ha

end NoTan

theorem noTan_ufunc {chi alpha : Dual ℝ} (hc : NoTan chi) (ha : NoTan alpha) :
    NoTan (ufunc0 chi alpha) ∧ NoTan (ufunc1 chi alpha) ∧ NoTan (ufunc2 chi alpha) ∧ NoTan (ufunc3 chi alpha) := by
  have n := NoTan.nat
  have hs := ha.sqrt
  have hm := ha.neg.sqrt
  refine ⟨?_, ?_, ?_, ?_⟩
  · exact .ite (hs.mul hc).cos (.ite (hm.mul hc).cosh .onesLike)
  · exact .ite ((hs.mul hc).sin.div hs) (.ite ((hm.mul hc).sinh.div hm) hc)
  · exact .ite (((n 1).sub (hs.mul hc).cos).div ha)
      (.ite (((hm.mul hc).cosh.sub (n 1)).div ha.neg) ((hc.pow 1).div (n 2)))
  · exact .ite ((((hs.mul hc).sub (hs.mul hc).sin).div ha).div hs)
      (.ite ((((hm.mul hc).sub (hm.mul hc).sinh).div ha).div hm) ((hc.pow 2).div (n 6)))

theorem noTan_chiOf {t a r0 s0 mu : Dual ℝ} (ht : NoTan t) (ha : NoTan a) (hr : NoTan r0) (hs : NoTan s0) (hm : NoTan mu) :
    NoTan (chiOf t a r0 s0 mu) := by
  obtain ⟨k, -, -, h, -⟩ := C13_uni t a r0 s0 mu defaultTol 50
  rw [solve_eq_chiOf] at h
  rw [Option.some.inj h]
  clear h
  induction k with
  | zero => exact (hm.sqrt.mul ha.abs).mul ht
  | succ k ih =>
    rw [Function.iterate_succ_apply']
    obtain ⟨u0, u1, u2, u3⟩ := noTan_ufunc ih ha
    exact ih.sub (((((hr.mul u1).add (hs.mul u2)).add u3).sub (hm.sqrt.mul ht)).div
      (((hr.mul u0).add (hs.mul u1)).add u2))

/-- With untraced time and `mu` the root of `kepler` is untraced: `item` has cut it off from the state. -/
theorem chiOf_cst (t a r0 s0 mu : ℝ) : chiOf (cst t) (cst a) (cst r0) (cst s0) (cst mu) = cst (chiOf t a r0 s0 mu) :=
  (noTan_chiOf (.cst _) (.cst _) (.cst _) (.cst _) (.cst _)).eq (chiOf_vals _ _ _ _ _)

/-! ### The two ways of moving a state -/

/-- A function of two variables, differentiated along two curves through the same point. -/
theorem deriv_two_curves {G : ℝ × ℝ → ℝ} {χ : ℝ} (hG : DifferentiableAt ℝ G (0, χ)) {c₁ c₂ : ℝ → ℝ} {p₁ p₂ a b : ℝ}
    (h₁ : HasDerivAt c₁ p₁ 0) (h₂ : HasDerivAt c₂ p₂ 0) (e₁ : c₁ 0 = χ) (e₂ : c₂ 0 = χ)
    (ha : HasDerivAt (fun s => G (s, c₁ s)) a 0) (hb : HasDerivAt (fun y => G (0, y)) b χ) :
    HasDerivAt (fun s => G (s, c₂ s)) (a + (p₂ - p₁) * b) 0 := by
  have hL := hG.hasFDerivAt
  set L := fderiv ℝ G (0, χ)
  have key : ∀ {c : ℝ → ℝ} {p : ℝ}, HasDerivAt c p 0 → c 0 = χ → HasDerivAt (fun s => G (s, c s)) (L (1, p)) 0 := by
    intro c p hc e
    have hp : HasDerivAt (fun s : ℝ => (s, c s)) ((1 : ℝ), p) 0 := (hasDerivAt_id (0 : ℝ)).prodMk hc
    exact HasFDerivAt.comp_hasDerivAt (0 : ℝ) (by rw [e]; exact hL) hp
  have hb' : b = L (0, 1) := by
    have hp : HasDerivAt (fun y : ℝ => ((0 : ℝ), y)) ((0 : ℝ), (1 : ℝ)) χ :=
      (hasDerivAt_const χ (0 : ℝ)).prodMk (hasDerivAt_id χ)
    exact hb.unique (HasFDerivAt.comp_hasDerivAt χ hL hp)
  have ha' : a = L (1, p₁) := ha.unique (key h₁ e₁)
  refine (key h₂ e₂).congr_deriv ?_
  have h12 : ((1 : ℝ), p₂) = (1, p₁) + (p₂ - p₁) • ((0 : ℝ), (1 : ℝ)) := by ext <;> simp
  rw [ha', hb', h12, map_add, map_smul, smul_eq_mul]

section
variable {r v : V3 ℝ} {mu : ℝ}

/-- The time of flight to generalized anomaly `χ`. -/
noncomputable def flightTime (r v : V3 ℝ) (mu χ : ℝ) : ℝ :=
  kepU (alphaOf r v mu) (V3.norm r) (sigma_fn r v mu) χ / Real.sqrt mu

variable {ρ ν : ℝ → V3 ℝ} {dρ dν : V3 ℝ} (hmu : 0 < mu)
  (hh : angular_momentum (ρ 0) (ν 0) ≠ ⟨0, 0, 0⟩) (hρ : HasDerivV ρ dρ 0) (hν : HasDerivV ν dν 0)
include hmu hh hρ hν

/-- Move the initial state along `(ρ, ν)` and the generalized anomaly along `c`: the propagated state moves as it does at
fixed time, plus the motion along the orbit at the rate at which the time of flight changes. -/
theorem step_curve {c : ℝ → ℝ} {p δ : ℝ} (hc : HasDerivAt c p 0)
    (hδ : HasDerivAt (fun s => flightTime (ρ s) (ν s) mu (c s)) δ 0) :
    let P := stepOf (ρ 0) (ν 0) mu (c 0)
    let Φ := dxdx0 P.1 P.2 (ρ 0) (ν 0) (flightTime (ρ 0) (ν 0) mu (c 0)) mu
    P = exactProp (ρ 0) (ν 0) mu (flightTime (ρ 0) (ν 0) mu (c 0)) ∧
    HasDerivV (fun s => (stepOf (ρ s) (ν s) mu (c s)).1) (M3.mulVec Φ.rr dρ + M3.mulVec Φ.rv dν + δ • P.2) 0 ∧
    HasDerivV (fun s => (stepOf (ρ s) (ν s) mu (c s)).2)
      (M3.mulVec Φ.vr dρ + M3.mulVec Φ.vv dν + δ • newtonAcc mu P.1) 0 := by
  intro P Φ
  set T := flightTime (ρ 0) (ν 0) mu (c 0) with hT
  have hP : P = exactProp (ρ 0) (ν 0) mu T := stepOf_eq_exactProp hmu hh _
  refine ⟨hP, ?_⟩
  have hs := Real.sqrt_pos.2 hmu
  have hsne := hs.ne'
  have hρ' : DiffV ρ 0 := ⟨hρ.x.differentiableAt, hρ.y.differentiableAt, hρ.z.differentiableAt⟩
  have hν' : DiffV ν 0 := ⟨hν.x.differentiableAt, hν.y.differentiableAt, hν.z.differentiableAt⟩
  -- the anomaly at fixed time
  set X : ℝ → ℝ := fun s => exactChi (ρ s) (ν s) mu T
  have hX := (differentiableAt_exactChi (t := T) hmu hh hρ' hν').hasDerivAt
  set X' := deriv (fun s => exactChi (ρ s) (ν s) mu T) 0
  have hX0 : X 0 = c 0 := (exactChi_unique hmu hh (isRoot_iff.2 (by
    rw [hT, flightTime]; field_simp))).symm
  -- everything as functions of two variables
  have hf : DiffV (fun q : ℝ × ℝ => ρ q.1) (0, c 0) := by
    refine ⟨?_, ?_, ?_⟩
    · exact DifferentiableAt.comp (g := fun s => (ρ s).x) ((0 : ℝ), c 0) hρ'.x differentiableAt_fst
    · exact DifferentiableAt.comp (g := fun s => (ρ s).y) ((0 : ℝ), c 0) hρ'.y differentiableAt_fst
    · exact DifferentiableAt.comp (g := fun s => (ρ s).z) ((0 : ℝ), c 0) hρ'.z differentiableAt_fst
  have hg : DiffV (fun q : ℝ × ℝ => ν q.1) (0, c 0) := by
    refine ⟨?_, ?_, ?_⟩
    · exact DifferentiableAt.comp (g := fun s => (ν s).x) ((0 : ℝ), c 0) hν'.x differentiableAt_fst
    · exact DifferentiableAt.comp (g := fun s => (ν s).y) ((0 : ℝ), c 0) hν'.y differentiableAt_fst
    · exact DifferentiableAt.comp (g := fun s => (ν s).z) ((0 : ℝ), c 0) hν'.z differentiableAt_fst
  have h0 : V3.norm (ρ 0) ≠ 0 := (state_invariant_pos hmu hh).1.ne'
  have hA := differentiableAt_alphaOf (f := fun q : ℝ × ℝ => ρ q.1) (g := fun q => ν q.1) (s := (0, c 0)) hmu hh hf hg
  have hS := differentiableAt_sigma (mu := mu) hf hg
  have hN := hf.norm h0
  have hC : DifferentiableAt ℝ (fun q : ℝ × ℝ => q.2) (0, c 0) := differentiableAt_snd
  have hU0 := differentiableAt_U 0 hC hA
  have hU1 := differentiableAt_U 1 hC hA
  have hU2 := differentiableAt_U 2 hC hA
  have hR : DifferentiableAt ℝ (fun q : ℝ × ℝ => radOf (ρ q.1) (ν q.1) mu q.2) (0, c 0) := by
    simp only [radOf, radU]
    exact ((hN.fun_mul hU0).fun_add (hS.fun_mul hU1)).fun_add hU2
  have hR0 : radOf (ρ 0) (ν 0) mu (c 0) ≠ 0 := (radOf_pos hmu hh).ne'
  have hK : DifferentiableAt ℝ (fun q : ℝ × ℝ => flightTime (ρ q.1) (ν q.1) mu q.2) (0, c 0) :=
    differentiableAt_div_const (differentiableAt_kepU hA hN hS hC) _
  have hG : DiffV (fun q : ℝ × ℝ => (stepOf (ρ q.1) (ν q.1) mu q.2).1) (0, c 0) ∧
      DiffV (fun q : ℝ × ℝ => (stepOf (ρ q.1) (ν q.1) mu q.2).2) (0, c 0) := by
    simp only [stepOf, keplerStep_eq, cF, cG, cFt, cGt]
    refine ⟨DiffV.add (.smul ?_ hf) (.smul ?_ hg), DiffV.add (.smul ?_ hf) (.smul ?_ hg)⟩
    · exact (differentiableAt_const 1).fun_sub (differentiableAt_div hU2 hN h0)
    · exact differentiableAt_div_const ((hN.fun_mul hU1).fun_add (hS.fun_mul hU2)) _
    · exact differentiableAt_div
        ((differentiableAt_div (differentiableAt_const (-Real.sqrt mu)) hR hR0).fun_mul hU1) hN h0
    · exact (differentiableAt_const 1).fun_sub (differentiableAt_div hU2 hR hR0)
  -- the clock
  have hclock : HasDerivAt (fun y => flightTime (ρ 0) (ν 0) mu y) (radOf (ρ 0) (ν 0) mu (c 0) / Real.sqrt mu) (c 0) :=
    (hasDerivAt_kepU _ _ _ _).div_const _
  have hfix : HasDerivAt (fun s => flightTime (ρ s) (ν s) mu (X s)) 0 0 := by
    refine (hasDerivAt_const (0 : ℝ) T).congr_of_eventuallyEq ?_
    filter_upwards [eventually_cross_ne hh hρ' hν'] with s hs'
    show flightTime _ _ _ _ = T
    rw [flightTime, kepU_exactChi hmu hs']; field_simp
  have hδ' := deriv_two_curves (G := fun q => flightTime (ρ q.1) (ν q.1) mu q.2) hK hX hc hX0 rfl hfix hclock
  have hd : δ = (p - X') * (radOf (ρ 0) (ν 0) mu (c 0) / Real.sqrt mu) := by
    have := hδ.unique hδ'
    rw [this, zero_add]
  -- the motion along the orbit
  obtain ⟨-, hq, hw⟩ := (C21_solves_two_body hmu hh).2 T (Set.mem_univ _)
  have horb : ∀ y, stepOf (ρ 0) (ν 0) mu y = exactProp (ρ 0) (ν 0) mu (flightTime (ρ 0) (ν 0) mu y) :=
    fun y => stepOf_eq_exactProp hmu hh y
  obtain ⟨k1, k2⟩ := C29_curve (t := T) hmu hh hρ hν
  rw [← hP] at k1 k2
  have along : ∀ {f : ℝ → ℝ} {f' : ℝ}, HasDerivAt f f' T → HasDerivAt (fun y => f (flightTime (ρ 0) (ν 0) mu y))
      (f' * (radOf (ρ 0) (ν 0) mu (c 0) / Real.sqrt mu)) (c 0) := fun hf =>
    HasDerivAt.comp (c 0) (h₂ := _) hf hclock
  constructor
  · have comp : ∀ {π : V3 ℝ → ℝ} {a : ℝ},
        DifferentiableAt ℝ (fun q : ℝ × ℝ => π (stepOf (ρ q.1) (ν q.1) mu q.2).1) (0, c 0) →
        HasDerivAt (fun s => π (exactProp (ρ s) (ν s) mu T).1) a 0 →
        HasDerivAt (fun t => π (exactProp (ρ 0) (ν 0) mu t).1) (π (exactProp (ρ 0) (ν 0) mu T).2) T →
        HasDerivAt (fun s => π (stepOf (ρ s) (ν s) mu (c s)).1) (a + δ * π P.2) 0 := by
      intro π a hd1 hd2 hd3
      have hb := along hd3
      simp only [← horb] at hb
      refine (deriv_two_curves (G := fun q => π (stepOf (ρ q.1) (ν q.1) mu q.2).1) hd1 hX hc hX0 rfl hd2 hb).congr_deriv ?_
      rw [hd, hP]; ring
    exact ⟨comp (π := V3.x) hG.1.x k1.x hq.x, comp (π := V3.y) hG.1.y k1.y hq.y, comp (π := V3.z) hG.1.z k1.z hq.z⟩
  · have comp : ∀ {π : V3 ℝ → ℝ} {a : ℝ},
        DifferentiableAt ℝ (fun q : ℝ × ℝ => π (stepOf (ρ q.1) (ν q.1) mu q.2).2) (0, c 0) →
        HasDerivAt (fun s => π (exactProp (ρ s) (ν s) mu T).2) a 0 →
        HasDerivAt (fun t => π (exactProp (ρ 0) (ν 0) mu t).2) (π (newtonAcc mu (exactProp (ρ 0) (ν 0) mu T).1)) T →
        HasDerivAt (fun s => π (stepOf (ρ s) (ν s) mu (c s)).2) (a + δ * π (newtonAcc mu P.1)) 0 := by
      intro π a hd1 hd2 hd3
      have hb := along hd3
      simp only [← horb] at hb
      refine (deriv_two_curves (G := fun q => π (stepOf (ρ q.1) (ν q.1) mu q.2).2) hd1 hX hc hX0 rfl hd2 hb).congr_deriv ?_
      rw [hd, hP]; ring
    exact ⟨comp (π := V3.x) hG.2.x k2.x hw.x, comp (π := V3.y) hG.2.y k2.y hw.y, comp (π := V3.z) hG.2.z k2.z hw.z⟩

theorem alphaOf_deriv : HasDerivAt (fun s => alphaOf (ρ s) (ν s) mu)
    (-(2 * dot (ρ 0) dρ / V3.norm (ρ 0) ^ 3) - 2 * dot (ν 0) dν / mu) 0 := by
  have h0 : V3.norm (ρ 0) ≠ 0 := (state_invariant_pos hmu hh).1.ne'
  simp only [alphaOf, inv_semimajor_axis, invA]
  have h1 := (hasDerivAt_const (0 : ℝ) (2 : ℝ)).fun_div (hρ.norm h0) h0
  have h2 := (hν.dot hν).div_const mu
  refine (h1.fun_sub h2).congr_deriv ?_
  rw [dot_comm dν]
  field_simp; ring

/-- The rate of change of the time of flight at fixed generalized anomaly. -/
theorem flightTime_deriv (χ : ℝ) :
    HasDerivAt (fun s => flightTime (ρ s) (ν s) mu χ)
      ((dot (ρ 0) dρ / V3.norm (ρ 0) * U 1 χ (alphaOf (ρ 0) (ν 0) mu)
        + (dot (ρ 0) dν + dot (ν 0) dρ) / Real.sqrt mu * U 2 χ (alphaOf (ρ 0) (ν 0) mu)
        - (dot (ρ 0) dρ / V3.norm (ρ 0) ^ 3 + dot (ν 0) dν / mu)
          * (V3.norm (ρ 0) * (U 3 χ (alphaOf (ρ 0) (ν 0) mu) - χ * U 2 χ (alphaOf (ρ 0) (ν 0) mu))
            + sigma_fn (ρ 0) (ν 0) mu * (2 * U 4 χ (alphaOf (ρ 0) (ν 0) mu) - χ * U 3 χ (alphaOf (ρ 0) (ν 0) mu))
            + (3 * U 5 χ (alphaOf (ρ 0) (ν 0) mu) - χ * U 4 χ (alphaOf (ρ 0) (ν 0) mu)))) / Real.sqrt mu) 0 := by
  have h0 : V3.norm (ρ 0) ≠ 0 := (state_invariant_pos hmu hh).1.ne'
  have hN := hρ.norm h0
  have hA := alphaOf_deriv hmu hh hρ hν
  have hS : HasDerivAt (fun s => sigma_fn (ρ s) (ν s) mu) ((dot (ρ 0) dν + dot (ν 0) dρ) / Real.sqrt mu) 0 := by
    simp only [sigma_fn, sqrt_real]
    refine ((hρ.dot hν).div_const _).congr_deriv ?_
    rw [dot_comm dρ]; ring
  have hX := hasDerivAt_const (0 : ℝ) χ
  have hU1 := hasDerivAt_U_curve 0 hX hA
  have hU2 := hasDerivAt_U_curve 1 hX hA
  have hU3 := hasDerivAt_U_curve 2 hX hA
  refine ((((hN.fun_mul hU1).fun_add (hS.fun_mul hU2)).fun_add hU3).div_const (Real.sqrt mu)).congr_deriv ?_
  congr 1
  push_cast
  ring

end

/-! ### `kepler` -/

section
variable {rv vv : V3 (Dual ℝ)} {mu : ℝ}

/-- The line through the value of a traced vector in the direction of its tangent. -/
noncomputable def lineOf (d : V3 (Dual ℝ)) (s : ℝ) : V3 ℝ := d.vals + s • dots d

theorem lineOf_zero (d : V3 (Dual ℝ)) : lineOf d 0 = d.vals := by ext <;> simp [lineOf]

theorem lineOf_tracks (d : V3 (Dual ℝ)) : TracksV (lineOf d) 0 d := by
  have h : ∀ e : Dual ℝ, Tracks (fun s => e.val + s * Dual.dot e) 0 e := fun e =>
    (Tracks.line e).congr (.of_eq (by funext x; ring))
  exact ⟨h d.x, h d.y, h d.z⟩

theorem lineOf_deriv (d : V3 (Dual ℝ)) : HasDerivV (lineOf d) (dots d) 0 :=
  ⟨(lineOf_tracks d).x.deriv, (lineOf_tracks d).y.deriv, (lineOf_tracks d).z.deriv⟩

theorem dots_of_tracks {g : ℝ → V3 ℝ} {d : V3 (Dual ℝ)} {w : V3 ℝ} (h : TracksV g 0 d) (hw : HasDerivV g w 0) : dots d = w := by
  ext
  · exact h.x.deriv.unique hw.x
  · exact h.y.deriv.unique hw.y
  · exact h.z.deriv.unique hw.z

/-- The traced row of `kepler`, for untraced `mu`. -/
theorem keplerRow_item (t' : Dual ℝ) :
    keplerRow rv vv (cst mu) t'
      = keplerStep (chiOf t' (cst (alphaOf rv.vals vv.vals mu)) (cst (V3.norm rv.vals)) (cst (sigma_fn rv.vals vv.vals mu))
          (cst mu))
        (ℓ 1 / semimajor_axis (V3.norm rv) (V3.norm vv) (cst mu)) (V3.norm rv) (sigma_fn rv vv (cst mu)) rv vv (cst mu) := by
  rw [← alphaOf_real]
  rfl

/-- At `alpha = 0` the tangent of `alpha` is lost; this does no harm if it is zero. -/
theorem ufunc_flat {chi alpha : ℝ → ℝ} {s : ℝ} {chi' alpha' : Dual ℝ} (hc : Tracks chi s chi') (hA : HasDerivAt alpha 0 s)
    (h0 : alpha s = 0) (h0' : alpha'.val = 0) :
    Tracks (fun s => ufunc0 (chi s) (alpha s)) s (ufunc0 chi' alpha') ∧
    Tracks (fun s => ufunc1 (chi s) (alpha s)) s (ufunc1 chi' alpha') ∧
    Tracks (fun s => ufunc2 (chi s) (alpha s)) s (ufunc2 chi' alpha') := by
  obtain ⟨u0, u1, u2, -⟩ := C62_ufunc_at_zero hc h0'
  have hz := hasDerivAt_const s (0 : ℝ)
  refine ⟨⟨by rw [u0.val, h0], ?_⟩, ⟨by rw [u1.val, h0], ?_⟩, ⟨by rw [u2.val, h0], ?_⟩⟩
  · have h1 := u0.deriv
    simp only [C07_ufunc0] at h1 ⊢
    refine (hasDerivAt_U0_curve hc.deriv hA).congr_deriv ?_
    rw [h1.unique (hasDerivAt_U0_curve hc.deriv hz), h0]
  · have h1 := u1.deriv
    simp only [C07_ufunc1] at h1 ⊢
    refine (hasDerivAt_U_curve 0 hc.deriv hA).congr_deriv ?_
    rw [h1.unique (hasDerivAt_U_curve 0 hc.deriv hz), h0]
  · have h1 := u2.deriv
    simp only [C07_ufunc2] at h1 ⊢
    refine (hasDerivAt_U_curve 1 hc.deriv hA).congr_deriv ?_
    rw [h1.unique (hasDerivAt_U_curve 1 hc.deriv hz), h0]

/-- C66: what forward-mode differentiation of `kepler` returns. Let `d` be the generalized anomaly found, with the
tangent it inherits from the time. The returned state is the exact one at the time of flight of `d`, and its tangents
are the transition matrix over that time applied to the tangents of the initial state, plus the velocity and
acceleration of the returned state times the rate `δ` at which the time of flight changes when the state moves and `d`
follows its tangent. The correct derivative has the tangent of the time in place of `δ`. On a parabola this holds for
the directions that keep the energy; in the others the tangent of `alpha` is lost as well (`C66_parabola`). -/
theorem C66_kepler_tangent (hmu : 0 < mu) (hh : angular_momentum rv.vals vv.vals ≠ ⟨0, 0, 0⟩)
    (ha : alphaOf rv.vals vv.vals mu = 0 → dot rv.vals (dots rv) / V3.norm rv.vals ^ 3 + dot vv.vals (dots vv) / mu = 0)
    (t' : Dual ℝ) :
    let d := chiOf t' (cst (alphaOf rv.vals vv.vals mu)) (cst (V3.norm rv.vals)) (cst (sigma_fn rv.vals vv.vals mu)) (cst mu)
    let T := flightTime rv.vals vv.vals mu d.val
    ∃ R V δ, kepler [t'] rv vv (cst mu) = some ([R], [V]) ∧
      kepler [t'.val] rv.vals vv.vals mu = some ([R.vals], [V.vals]) ∧
      (R.vals, V.vals) = exactProp rv.vals vv.vals mu T ∧
      HasDerivAt (fun s => flightTime (lineOf rv s) (lineOf vv s) mu (d.val + Dual.dot d * s)) δ 0 ∧
      HasDerivV (fun s => (stepOf (lineOf rv s) (lineOf vv s) mu (d.val + Dual.dot d * s)).1) (dots R) 0 ∧
      HasDerivV (fun s => (stepOf (lineOf rv s) (lineOf vv s) mu (d.val + Dual.dot d * s)).2) (dots V) 0 ∧
      let Φ := dxdx0 R.vals V.vals rv.vals vv.vals T mu
      dots R = M3.mulVec Φ.rr (dots rv) + M3.mulVec Φ.rv (dots vv) + δ • V.vals ∧
      dots V = M3.mulVec Φ.vr (dots rv) + M3.mulVec Φ.vv (dots vv) + δ • newtonAcc mu R.vals := by
  intro d T
  have hh0 : angular_momentum (lineOf rv 0) (lineOf vv 0) ≠ ⟨0, 0, 0⟩ := by rw [lineOf_zero, lineOf_zero]; exact hh
  obtain ⟨hr, hv⟩ : lineOf rv 0 ≠ ⟨0, 0, 0⟩ ∧ lineOf vv 0 ≠ ⟨0, 0, 0⟩ := by
    constructor <;> intro h <;> rw [h] at hh0 <;> apply hh0 <;> simp [angular_momentum, V3.cross]
  have hs := Real.sqrt_pos.2 hmu
  have hn : V3.norm (lineOf rv 0) ≠ 0 := ((norm_pos _).2 hr).ne'
  have hc := Tracks.line d
  have tr := lineOf_tracks rv
  have tv := lineOf_tracks vv
  have tm : Tracks (fun _ => mu) 0 (cst mu) := Tracks.const mu
  have tσ : Tracks (fun s => sigma_fn (lineOf rv s) (lineOf vv s) mu) 0 (sigma_fn rv vv (cst mu)) :=
    (tr.dot tv).div (tm.sqrt hmu) hs.ne'
  have hrad : dchi (d.val + Dual.dot d * 0) (alphaOf (lineOf rv 0) (lineOf vv 0) mu) (V3.norm (lineOf rv 0))
      (sigma_fn (lineOf rv 0) (lineOf vv 0) mu) ≠ 0 := by
    rw [dchi_eq]; exact (radOf_pos hmu hh0).ne'
  obtain ⟨u0, u1, u2⟩ : Tracks (fun s => ufunc0 (d.val + Dual.dot d * s) (alphaOf (lineOf rv s) (lineOf vv s) mu)) 0
        (ufunc0 d (ℓ 1 / semimajor_axis (V3.norm rv) (V3.norm vv) (cst mu))) ∧
      Tracks (fun s => ufunc1 (d.val + Dual.dot d * s) (alphaOf (lineOf rv s) (lineOf vv s) mu)) 0
        (ufunc1 d (ℓ 1 / semimajor_axis (V3.norm rv) (V3.norm vv) (cst mu))) ∧
      Tracks (fun s => ufunc2 (d.val + Dual.dot d * s) (alphaOf (lineOf rv s) (lineOf vv s) mu)) 0
        (ufunc2 d (ℓ 1 / semimajor_axis (V3.norm rv) (V3.norm vv) (cst mu))) := by
    by_cases hal : alphaOf (lineOf rv 0) (lineOf vv 0) mu = 0
    · refine ufunc_flat hc ?_ hal ?_
      · refine (alphaOf_deriv hmu hh0 (lineOf_deriv rv) (lineOf_deriv vv)).congr_deriv ?_
        rw [lineOf_zero, lineOf_zero] at hal ⊢
        have h2 := ha hal
        have e : -(2 * dot rv.vals (dots rv) / V3.norm rv.vals ^ 3) - 2 * dot vv.vals (dots vv) / mu
          = -2 * (dot rv.vals (dots rv) / V3.norm rv.vals ^ 3 + dot vv.vals (dots vv) / mu) := by ring
        rw [e, h2, mul_zero]
      · rw [lineOf_zero, lineOf_zero, ← alphaOf_real] at hal
        exact hal
    · have hal2 : 2 / V3.norm (lineOf rv 0) - V3.norm (lineOf vv 0) ^ 2 / mu ≠ 0 := by
        simpa [alphaOf, semimajor_axis] using hal
      have hsm : semimajor_axis (V3.norm (lineOf rv 0)) (V3.norm (lineOf vv 0)) mu ≠ 0 := by
        intro h; apply hal; rw [alphaOf, h, div_zero]
      have tα : Tracks (fun s => alphaOf (lineOf rv s) (lineOf vv s) mu) 0
          (ℓ 1 / semimajor_axis (V3.norm rv) (V3.norm vv) (cst mu)) :=
        ((Tracks.nat 1).div (C62_semimajor_axis (tr.norm hr) (tv.norm hv) tm hn hmu.ne' hal2) hsm).congr
          (.of_eq (by funext x; rw [← alphaOf_real]))
      obtain ⟨u0, u1, u2, -⟩ := C62_ufunc hc tα hal
      exact ⟨u0, u1, u2⟩
  have hradt := C62_equ_of_orb_uvi u0 u1 u2 (tr.norm hr) tσ
  obtain ⟨hF, hG, hFt, hGt⟩ := C62_lagrange u1 u2 tσ hradt (tr.norm hr) tm hrad hn hmu
  have tR := (TracksV.smul hF tr).add (TracksV.smul hG tv)
  have tV := (TracksV.smul hFt tr).add (TracksV.smul hGt tv)
  have hdiff : DifferentiableAt ℝ (fun s => flightTime (lineOf rv s) (lineOf vv s) mu (d.val + Dual.dot d * s)) 0 := by
    have hρ : DiffV (lineOf rv) 0 := ⟨(lineOf_deriv rv).x.differentiableAt, (lineOf_deriv rv).y.differentiableAt,
      (lineOf_deriv rv).z.differentiableAt⟩
    have hν : DiffV (lineOf vv) 0 := ⟨(lineOf_deriv vv).x.differentiableAt, (lineOf_deriv vv).y.differentiableAt,
      (lineOf_deriv vv).z.differentiableAt⟩
    exact differentiableAt_div_const (differentiableAt_kepU (differentiableAt_alphaOf hmu hh0 hρ hν) (hρ.norm hn)
      (differentiableAt_sigma hρ hν) hc.deriv.differentiableAt) _
  obtain ⟨e0, e1, e2⟩ := step_curve hmu hh0 (lineOf_deriv rv) (lineOf_deriv vv) hc.deriv hdiff.hasDerivAt
  have hk := kepler_eq_map [t'] rv vv (cst mu)
  simp only [List.map_cons, List.map_nil, keplerRow_item] at hk
  have hkv := C61_kepler [t'] rv vv (cst mu)
  rw [hk, Option.map_some] at hkv
  simp only [mul_zero, add_zero, lineOf_zero] at e0 e1 e2
  have d1 := dots_of_tracks tR e1
  have d2 := dots_of_tracks tV e2
  have hvals := keplerStep_vals d (ℓ 1 / semimajor_axis (V3.norm rv) (V3.norm vv) (cst mu)) (V3.norm rv)
    (sigma_fn rv vv (cst mu)) (cst mu) rv vv
  have hvals' := hvals.trans (show _ = stepOf rv.vals vv.vals mu d.val by rw [stepOf, ← alphaOf_real]; rfl)
  rw [Prod.ext_iff] at hvals'
  obtain ⟨v1, v2⟩ := hvals'
  simp only at v1 v2
  refine ⟨_, _, deriv (fun s => flightTime (lineOf rv s) (lineOf vv s) mu (d.val + Dual.dot d * s)) 0, hk, hkv.symm, ?_,
    hdiff.hasDerivAt, ⟨tR.x.deriv, tR.y.deriv, tR.z.deriv⟩, ⟨tV.x.deriv, tV.y.deriv, tV.z.deriv⟩, ?_, ?_⟩
  · rw [v1, v2]; exact e0
  · rw [v1, v2]; exact d1
  · rw [v1, v2]; exact d2

/-- The rate `δ` of C66 for untraced time: the rate of change of the time of flight at fixed generalized anomaly `χ` when
the state `(r, v)` moves with velocity `(x, y)`. -/
noncomputable def clockRate (r v x y : V3 ℝ) (mu χ : ℝ) : ℝ :=
  (dot r x / V3.norm r * U 1 χ (alphaOf r v mu) + (dot r y + dot v x) / Real.sqrt mu * U 2 χ (alphaOf r v mu)
    - (dot r x / V3.norm r ^ 3 + dot v y / mu)
      * (V3.norm r * (U 3 χ (alphaOf r v mu) - χ * U 2 χ (alphaOf r v mu))
        + sigma_fn r v mu * (2 * U 4 χ (alphaOf r v mu) - χ * U 3 χ (alphaOf r v mu))
        + (3 * U 5 χ (alphaOf r v mu) - χ * U 4 χ (alphaOf r v mu)))) / Real.sqrt mu

theorem add_newtonAcc {R a : V3 ℝ} {δ : ℝ} (hmu : 0 < mu) (hR : R ≠ ⟨0, 0, 0⟩) : a + δ • newtonAcc mu R = a ↔ δ = 0 := by
  constructor
  · intro h
    by_contra hδ
    have hk : -mu / Real.sqrt (R.x ^ 2 + R.y ^ 2 + R.z ^ 2) ^ 3 ≠ 0 := by
      have e : Real.sqrt (R.x ^ 2 + R.y ^ 2 + R.z ^ 2) = V3.norm R := radius_eq_norm R
      rw [e]
      exact div_ne_zero (neg_ne_zero.2 hmu.ne') (pow_ne_zero 3 ((norm_pos _).2 hR).ne')
    have hc : ∀ b y : ℝ, b + δ * (-mu / Real.sqrt (R.x ^ 2 + R.y ^ 2 + R.z ^ 2) ^ 3 * y) = b → y = 0 := fun b y hy =>
      (mul_eq_zero.1 ((mul_eq_zero.1 (by linarith :
        δ * (-mu / Real.sqrt (R.x ^ 2 + R.y ^ 2 + R.z ^ 2) ^ 3 * y) = 0)).resolve_left hδ)).resolve_left hk
    apply hR
    ext
    · exact hc _ _ (congrArg V3.x h)
    · exact hc _ _ (congrArg V3.y h)
    · exact hc _ _ (congrArg V3.z h)
  · rintro rfl
    ext <;> simp

/-- C66 for untraced time: `kepler` differentiated with respect to the initial state alone. The tangents returned are
the correct ones (`dxdx0` at the time of the returned state) if and only if `clockRate` is zero. -/
theorem C66_kepler_state (hmu : 0 < mu) (hh : angular_momentum rv.vals vv.vals ≠ ⟨0, 0, 0⟩)
    (ha : alphaOf rv.vals vv.vals mu = 0 → dot rv.vals (dots rv) / V3.norm rv.vals ^ 3 + dot vv.vals (dots vv) / mu = 0)
    (t : ℝ) :
    let χ := chiOf t (alphaOf rv.vals vv.vals mu) (V3.norm rv.vals) (sigma_fn rv.vals vv.vals mu) mu
    let T := flightTime rv.vals vv.vals mu χ
    let δ := clockRate rv.vals vv.vals (dots rv) (dots vv) mu χ
    ∃ R V, kepler [cst t] rv vv (cst mu) = some ([R], [V]) ∧
      kepler [t] rv.vals vv.vals mu = some ([R.vals], [V.vals]) ∧
      (R.vals, V.vals) = exactProp rv.vals vv.vals mu T ∧
      let Φ := dxdx0 R.vals V.vals rv.vals vv.vals T mu
      HasDerivV (fun s => (exactProp (lineOf rv s) (lineOf vv s) mu T).1)
        (M3.mulVec Φ.rr (dots rv) + M3.mulVec Φ.rv (dots vv)) 0 ∧
      HasDerivV (fun s => (exactProp (lineOf rv s) (lineOf vv s) mu T).2)
        (M3.mulVec Φ.vr (dots rv) + M3.mulVec Φ.vv (dots vv)) 0 ∧
      dots R = M3.mulVec Φ.rr (dots rv) + M3.mulVec Φ.rv (dots vv) + δ • V.vals ∧
      dots V = M3.mulVec Φ.vr (dots rv) + M3.mulVec Φ.vv (dots vv) + δ • newtonAcc mu R.vals ∧
      (dots V = M3.mulVec Φ.vr (dots rv) + M3.mulVec Φ.vv (dots vv) ↔ δ = 0) := by
  intro χ T δ
  obtain ⟨R, V, δ', h1, h2, h3, h4, -, -, h5, h6⟩ := C66_kepler_tangent hmu hh ha (cst t)
  rw [chiOf_cst] at h3 h4 h5 h6
  have hh0 : angular_momentum (lineOf rv 0) (lineOf vv 0) ≠ ⟨0, 0, 0⟩ := by rw [lineOf_zero, lineOf_zero]; exact hh
  have hδ : δ' = δ := by
    have h7 := flightTime_deriv hmu hh0 (lineOf_deriv rv) (lineOf_deriv vv) χ
    simp only [lineOf_zero] at h7
    refine h4.unique (h7.congr_of_eventuallyEq (.of_eq ?_))
    funext s
    show flightTime _ _ _ (χ + 0 * s) = _
    rw [zero_mul, add_zero]
  rw [hδ] at h5 h6
  obtain ⟨c1, c2⟩ := C29_curve (t := T) hmu hh0 (lineOf_deriv rv) (lineOf_deriv vv)
  simp only [lineOf_zero] at c1 c2
  rw [← show (R.vals, V.vals) = exactProp rv.vals vv.vals mu T from h3] at c1 c2
  have h6' : dots V = M3.mulVec (dxdx0 R.vals V.vals rv.vals vv.vals T mu).vr (dots rv)
    + M3.mulVec (dxdx0 R.vals V.vals rv.vals vv.vals T mu).vv (dots vv) + δ • newtonAcc mu R.vals := h6
  refine ⟨R, V, h1, h2, h3, c1, c2, h5, h6, ?_⟩
  have hR : R.vals ≠ ⟨0, 0, 0⟩ := by
    have := exactProp_ne (r := rv.vals) (v := vv.vals) hmu hh T
    rw [← show (R.vals, V.vals) = exactProp rv.vals vv.vals mu T from h3] at this
    exact this
  rw [h6']
  exact add_newtonAcc hmu hR

/-- C66, where it holds: for a motion of the initial state that keeps the radius, the speed and the radial velocity (an
infinitesimal rotation, for instance) the tangents are correct. -/
theorem C66_rotation (hmu : 0 < mu) (hh : angular_momentum rv.vals vv.vals ≠ ⟨0, 0, 0⟩)
    (t : ℝ) (h1 : dot rv.vals (dots rv) = 0) (h2 : dot vv.vals (dots vv) = 0)
    (h3 : dot rv.vals (dots vv) + dot vv.vals (dots rv) = 0) :
    let χ := chiOf t (alphaOf rv.vals vv.vals mu) (V3.norm rv.vals) (sigma_fn rv.vals vv.vals mu) mu
    let T := flightTime rv.vals vv.vals mu χ
    ∃ R V, kepler [cst t] rv vv (cst mu) = some ([R], [V]) ∧
      HasDerivV (fun s => (exactProp (lineOf rv s) (lineOf vv s) mu T).1) (dots R) 0 ∧
      HasDerivV (fun s => (exactProp (lineOf rv s) (lineOf vv s) mu T).2) (dots V) 0 := by
  intro χ T
  obtain ⟨R, V, k1, -, -, k4, k5, k6, -, k8⟩ := C66_kepler_state hmu hh (fun _ => by rw [h1, h2]; simp) t
  have h0 : clockRate rv.vals vv.vals (dots rv) (dots vv) mu χ = 0 := by
    simp only [clockRate, h1, h2, h3]; simp
  refine ⟨R, V, k1, ?_, by rw [k8.2 h0]; exact k5⟩
  rw [show dots R = _ from k6, h0]
  have hz : ∀ a : V3 ℝ, a + (0 : ℝ) • V.vals = a := fun a => by ext <;> simp
  rw [hz]; exact k4

/-- Seeding the velocity of a constant state. -/
noncomputable abbrev seedV (v y : V3 ℝ) : V3 (Dual ℝ) := ⟨⟨v.x, some y.x⟩, ⟨v.y, some y.y⟩, ⟨v.z, some y.z⟩⟩

/-- C66, refuted at every state that is not rectilinear, for every time for which the anomaly found is not 0: some direction of the initial velocity is differentiated wrongly. -/
theorem C66_kepler_refuted {r v : V3 ℝ} (hmu : 0 < mu) (hh : angular_momentum r v ≠ ⟨0, 0, 0⟩) (t : ℝ)
    (hχ : chiOf t (alphaOf r v mu) (V3.norm r) (sigma_fn r v mu) mu ≠ 0) :
    ∃ y R V, kepler [cst t] (cstV r) (seedV v y) (cst mu) = some ([R], [V]) ∧
      kepler [t] r v mu = some ([R.vals], [V.vals]) ∧
      ∃ T, (R.vals, V.vals) = exactProp r v mu T ∧
        ∃ w, HasDerivV (fun s => (exactProp r (v + s • y) mu T).2) w 0 ∧ dots V ≠ w := by
  set χ := chiOf t (alphaOf r v mu) (V3.norm r) (sigma_fn r v mu) mu with hχdef
  set α := alphaOf r v mu with hα
  have hs := Real.sqrt_pos.2 hmu
  have hrp := (state_invariant_pos hmu hh).1
  have hv : v ≠ ⟨0, 0, 0⟩ := by rintro rfl; apply hh; simp [angular_momentum, V3.cross]
  have hvp : 0 < dot v v := (dot_self_pos v).2 hv
  -- a seed whose rate is not zero
  obtain ⟨y, hy, hy0⟩ : ∃ y, clockRate r v ⟨0, 0, 0⟩ y mu χ ≠ 0 ∧ (α = 0 → dot v y = 0) := by
    by_cases hU : U 2 χ α = 0
    · have hU1 : U 1 χ α = 0 := by
        have := U1_sq χ α
        rw [hU] at this
        exact pow_eq_zero_iff (two_ne_zero) |>.1 (by linarith)
      have e1 := U_rec 1 χ α
      have e2 := U_rec 2 χ α
      have e3 := U_rec 3 χ α
      norm_num [Nat.factorial] at e1 e2 e3
      have ha : α ≠ 0 := by
        intro h; rw [h, U_zero_right] at hU1; exact hχ (by simpa using hU1)
      have hU3 : U 3 χ α = χ / α := by field_simp; linarith
      have hU4 : U 4 χ α = χ ^ 2 / 2 / α := by rw [eq_div_iff ha]; linarith
      have hU5 : U 5 χ α = (χ ^ 3 / 6 - χ / α) / α := by rw [eq_div_iff ha]; linarith
      refine ⟨v, ?_, fun h => absurd h ha⟩
      have hlt : α * V3.norm r < 3 := by
        have h1 : α = 2 / V3.norm r - dot v v / mu := by
          rw [hα, alphaOf, inv_semimajor_axis, invA]
        have h2 : α * V3.norm r = 2 - dot v v / mu * V3.norm r := by rw [h1]; field_simp
        have : 0 < dot v v / mu * V3.norm r := by positivity
        linarith
      have hval : clockRate r v ⟨0, 0, 0⟩ v mu χ = dot v v / mu * (χ * (3 - α * V3.norm r) / α ^ 2) / Real.sqrt mu := by
        have z1 : dot r (⟨0, 0, 0⟩ : V3 ℝ) = 0 := by simp [V3.dot]
        rw [clockRate, ← hα, hU1, hU, hU3, hU4, hU5, z1]
        congr 1
        field_simp
        ring
      rw [hval]
      have : 3 - α * V3.norm r ≠ 0 := by linarith
      positivity
    · -- a direction across the velocity, not across the radius
      refine ⟨dot v v • r - dot r v • v, ?_, fun _ => by
        simp only [V3.dot, sub_x, sub_y, sub_z, smul_x, smul_y, smul_z]; ring⟩
      have hd1 : dot v (dot v v • r - dot r v • v) = 0 := by
        simp only [V3.dot, sub_x, sub_y, sub_z, smul_x, smul_y, smul_z]; ring
      have hd2 : dot r (dot v v • r - dot r v • v) = dot (cross r v) (cross r v) := by
        simp only [V3.dot, V3.cross, sub_x, sub_y, sub_z, smul_x, smul_y, smul_z]; ring
      have hcp : 0 < dot (cross r v) (cross r v) := (dot_self_pos _).2 hh
      have z1 : dot r (⟨0, 0, 0⟩ : V3 ℝ) = 0 := by simp [V3.dot]
      have z2 : dot v (⟨0, 0, 0⟩ : V3 ℝ) = 0 := by simp [V3.dot]
      rw [clockRate, ← hα, hd1, hd2, z1, z2]
      simp only [zero_div, zero_mul, add_zero, zero_add, sub_zero]
      exact div_ne_zero (mul_ne_zero (div_ne_zero hcp.ne' hs.ne') hU) hs.ne'
  obtain ⟨R, V, k1, k2, k3, -, k5, -, -, k8⟩ := C66_kepler_state (rv := cstV r) (vv := seedV v y) hmu hh
    (fun h => by
      have e1 : dot v y = 0 := hy0 h
      show dot r (⟨0, 0, 0⟩ : V3 ℝ) / V3.norm r ^ 3 + dot v y / mu = 0
      rw [e1]; simp [V3.dot]) t
  have hlr : ∀ s, lineOf (cstV r) s = r := fun s => by ext <;> simp [lineOf, dots, Dual.dot] <;> rfl
  refine ⟨y, R, V, k1, k2, _, k3, _, ?_, fun h => hy (k8.1 h)⟩
  simp only [hlr] at k5
  exact k5

theorem HasDerivV.unique {f : ℝ → V3 ℝ} {a b : V3 ℝ} {t : ℝ} (ha : HasDerivV f a t) (hb : HasDerivV f b t) :
    a = b := by
  ext
  · exact ha.x.unique hb.x
  · exact ha.y.unique hb.y
  · exact ha.z.unique hb.z

/-- On a parabola all directions: the tangents are those of the step with the generalized anomaly and `alpha` both held
fixed. -/
theorem C66_parabola (hmu : 0 < mu) (hh : angular_momentum rv.vals vv.vals ≠ ⟨0, 0, 0⟩)
    (ha : alphaOf rv.vals vv.vals mu = 0) (t : ℝ) :
    let χ := chiOf t 0 (V3.norm rv.vals) (sigma_fn rv.vals vv.vals mu) mu
    let g := fun s => keplerStep χ 0 (V3.norm (lineOf rv s)) (sigma_fn (lineOf rv s) (lineOf vv s) mu)
      (lineOf rv s) (lineOf vv s) mu
    ∃ R V, kepler [cst t] rv vv (cst mu) = some ([R], [V]) ∧
      TracksV (fun s => (g s).1) 0 R ∧ TracksV (fun s => (g s).2) 0 V := by
  intro χ g
  have hh0 : angular_momentum (lineOf rv 0) (lineOf vv 0) ≠ ⟨0, 0, 0⟩ := by rw [lineOf_zero, lineOf_zero]; exact hh
  have hr : lineOf rv 0 ≠ ⟨0, 0, 0⟩ := by
    intro h; rw [h] at hh0; apply hh0; simp [angular_momentum, V3.cross]
  have hs := Real.sqrt_pos.2 hmu
  have hn : V3.norm (lineOf rv 0) ≠ 0 := ((norm_pos _).2 hr).ne'
  have tr := lineOf_tracks rv
  have tv := lineOf_tracks vv
  have tm : Tracks (fun _ => mu) 0 (cst mu) := Tracks.const mu
  have tσ : Tracks (fun s => sigma_fn (lineOf rv s) (lineOf vv s) mu) 0 (sigma_fn rv vv (cst mu)) :=
    (tr.dot tv).div (tm.sqrt hmu) hs.ne'
  have tc : Tracks (fun _ => χ) 0 (cst χ) := Tracks.const χ
  have hal : (ℓ 1 / semimajor_axis (V3.norm rv) (V3.norm vv) (cst mu) : Dual ℝ).val = 0 := by
    rw [← alphaOf_real] at ha; exact ha
  obtain ⟨u0, u1, u2, -⟩ := C62_ufunc_at_zero tc hal
  have hrad : dchi χ 0 (V3.norm (lineOf rv 0)) (sigma_fn (lineOf rv 0) (lineOf vv 0) mu) ≠ 0 := by
    rw [dchi_eq]
    have := (radOf_pos (χ := χ) hmu hh0).ne'
    rw [radOf, lineOf_zero, lineOf_zero, ha] at this
    rw [lineOf_zero, lineOf_zero]; exact this
  have hradt := C62_equ_of_orb_uvi u0 u1 u2 (tr.norm hr) tσ
  obtain ⟨hF, hG, hFt, hGt⟩ := C62_lagrange u1 u2 tσ hradt (tr.norm hr) tm hrad hn hmu
  have hk := kepler_eq_map [cst t] rv vv (cst mu)
  simp only [List.map_cons, List.map_nil, keplerRow_item, chiOf_cst, ha] at hk
  exact ⟨_, _, hk, (TracksV.smul hF tr).add (TracksV.smul hG tv), (TracksV.smul hFt tr).add (TracksV.smul hGt tv)⟩

/-! ### The unit circle -/

/-- Seeding the position of a constant state. -/
noncomputable abbrev seedR (r x : V3 ℝ) : V3 (Dual ℝ) := ⟨⟨r.x, some x.x⟩, ⟨r.y, some x.y⟩, ⟨r.z, some x.z⟩⟩

theorem U_one (χ : ℝ) : U 0 χ 1 = Real.cos χ ∧ U 1 χ 1 = Real.sin χ ∧ U 2 χ 1 = 1 - Real.cos χ ∧ U 3 χ 1 = χ - Real.sin χ ∧
    U 4 χ 1 = χ ^ 2 / 2 - 1 + Real.cos χ ∧ U 5 χ 1 = χ ^ 3 / 6 - χ + Real.sin χ := by
  have h0 : U 0 χ 1 = Real.cos χ := by rw [← C07_ufunc0]; simp [ufunc0]
  have h1 : U 1 χ 1 = Real.sin χ := by rw [← C07_ufunc1]; simp [ufunc1]
  have e0 := U_rec 0 χ 1
  have e1 := U_rec 1 χ 1
  have e2 := U_rec 2 χ 1
  have e3 := U_rec 3 χ 1
  norm_num [Nat.factorial] at e0 e1 e2 e3
  refine ⟨h0, h1, ?_, ?_, ?_, ?_⟩ <;> linarith

/-- C66, refuted in numbers. On the unit circle with `mu = 1`, move the initial position outwards. The position found at
time `t` is exact, `(cos t, sin t, 0)`; its derivative comes out as `(2 cos t - 1 + t sin t, 2 sin t - t cos t, 0)`, a
drift along the orbit of `-t`, where the derivative of the motion drifts by `-3 t`. -/
theorem C66_circle_refuted (t : ℝ) :
    ∃ R V, kepler [cst t] (seedR ⟨1, 0, 0⟩ ⟨1, 0, 0⟩) (cstV ⟨0, 1, 0⟩) (cst 1) = some ([R], [V]) ∧
      R.vals = ⟨Real.cos t, Real.sin t, 0⟩ ∧ (R.vals, V.vals) = exactProp ⟨1, 0, 0⟩ ⟨0, 1, 0⟩ 1 t ∧
      dots R = ⟨2 * Real.cos t - 1 + t * Real.sin t, 2 * Real.sin t - t * Real.cos t, 0⟩ ∧
      HasDerivV (fun s => (exactProp ⟨1 + s, 0, 0⟩ ⟨0, 1, 0⟩ 1 t).1)
        ⟨2 * Real.cos t - 1 + 3 * t * Real.sin t - Real.sin t ^ 2,
          2 * Real.sin t - 3 * t * Real.cos t + Real.sin t * Real.cos t, 0⟩ 0 := by
  have hn1 : V3.norm (⟨1, 0, 0⟩ : V3 ℝ) = 1 := by simp [V3.norm, V3.dot]
  have hn2 : V3.norm (⟨0, 1, 0⟩ : V3 ℝ) = 1 := by simp [V3.norm, V3.dot]
  have hal : alphaOf (⟨1, 0, 0⟩ : V3 ℝ) ⟨0, 1, 0⟩ 1 = 1 := by
    rw [alphaOf, hn1, hn2]; simp only [semimajor_axis]; norm_num
  have hsg : sigma_fn (⟨1, 0, 0⟩ : V3 ℝ) ⟨0, 1, 0⟩ 1 = 0 := by simp [sigma_fn, V3.dot]
  have hh : angular_momentum (⟨1, 0, 0⟩ : V3 ℝ) ⟨0, 1, 0⟩ ≠ ⟨0, 0, 0⟩ := by
    intro h; have := congrArg V3.z h; norm_num [angular_momentum, V3.cross] at this
  obtain ⟨c0, c1, c2, c3, c4, c5⟩ := U_one t
  have hkep : kepU 1 1 0 t = t := by rw [kepU, c1, c2, c3]; ring
  have hchi : chiOf t 1 1 0 1 = t := by
    have h := chiOf_start (t := t) (al := 1) (r0 := 1) (s0 := 0) (mu := 1) (by
      have e : uniStart t 1 1 = t := by simp [uniStart]
      rw [e, kep_uni_eq, hkep]; simp [defaultTol])
    have h2 := congrArg Dual.val h
    rw [chiOf_vals] at h2
    simpa using h2
  have hfl : flightTime (⟨1, 0, 0⟩ : V3 ℝ) ⟨0, 1, 0⟩ 1 t = t := by
    rw [flightTime, hal, hn1, hsg, hkep]; simp
  set rv := seedR ⟨1, 0, 0⟩ ⟨1, 0, 0⟩ with hrv
  set vv := cstV ⟨0, 1, 0⟩ with hvv
  have hvr : rv.vals = ⟨1, 0, 0⟩ := rfl
  have hvv' : vv.vals = ⟨0, 1, 0⟩ := rfl
  have hdr : dots rv = ⟨1, 0, 0⟩ := rfl
  have hdv : dots vv = ⟨0, 0, 0⟩ := rfl
  have hdot : Dual.dot (cst t) = 0 := rfl
  have hlr : ∀ s, lineOf rv s = ⟨1 + s, 0, 0⟩ := fun s => by
    rw [lineOf, hvr, hdr]; ext <;> simp
  have hlv : ∀ s, lineOf vv s = ⟨0, 1, 0⟩ := fun s => by
    rw [lineOf, hvv', hdv]; ext <;> simp
  obtain ⟨R, V, δ, h1, h2, h3, h4, h5, -, h6, -⟩ := C66_kepler_tangent (rv := rv) (vv := vv) (mu := 1) one_pos hh
    (fun h => by rw [hvr, hvv', hal] at h; norm_num at h) (cst t)
  have hh0 : angular_momentum (lineOf rv 0) (lineOf vv 0) ≠ ⟨0, 0, 0⟩ := by rw [lineOf_zero, lineOf_zero]; exact hh
  simp only [hvr, hvv', hal, hn1, hsg, chiOf_cst, hchi, hdot, zero_mul, add_zero, hfl] at h3 h4 h5 h6
  have hRV : (R.vals, V.vals) = (⟨Real.cos t, Real.sin t, 0⟩, ⟨-Real.sin t, Real.cos t, 0⟩) := by
    have hst := stepOf_eq_exactProp (mu := 1) one_pos hh t
    rw [← flightTime, hfl] at hst
    rw [h3, ← hst, stepOf, keplerStep_eq, hal, hn1, hsg]
    have hrad : radU 1 1 0 t = 1 := by rw [radU, c0, c1, c2]; ring
    simp only [cF, cG, cFt, cGt, hrad, c1, c2, Real.sqrt_one]
    refine Prod.ext ?_ ?_ <;> ext <;> simp
  obtain ⟨eR, eV⟩ := Prod.mk.inj hRV
  -- the rate
  have hδ : δ = 2 * t - Real.sin t := by
    have h7 := flightTime_deriv (mu := 1) one_pos hh0 (lineOf_deriv rv) (lineOf_deriv vv) t
    rw [h4.unique h7]
    simp only [lineOf_zero, hvr, hvv', hdr, hdv, hal, hn1, hsg, c1, c2, c3, c4, c5, Real.sqrt_one, V3.dot]
    ring
  -- the derivative at fixed anomaly
  have hd : dots R = ⟨2 * Real.cos t - 1 + t * Real.sin t, 2 * Real.sin t - t * Real.cos t, 0⟩ := by
    have hA := alphaOf_deriv (mu := 1) one_pos hh0 (lineOf_deriv rv) (lineOf_deriv vv)
    have hN := (lineOf_deriv rv).norm (by rw [lineOf_zero, hvr, hn1]; norm_num)
    have hX := hasDerivAt_const (0 : ℝ) t
    have hU1 := hasDerivAt_U_curve 0 hX hA
    have hU2 := hasDerivAt_U_curve 1 hX hA
    have hS : HasDerivAt (fun s => sigma_fn (lineOf rv s) (lineOf vv s) 1) 0 0 := by
      refine (hasDerivAt_const (0 : ℝ) (0 : ℝ)).congr_of_eventuallyEq (.of_eq ?_)
      funext s
      rw [hlr, hlv]; simp [sigma_fn, V3.dot]
    have hn0 : V3.norm (lineOf rv 0) ≠ 0 := by rw [lineOf_zero, hvr, hn1]; norm_num
    have hF := (hU2.fun_div hN hn0).const_sub 1
    have hG := ((hN.fun_mul hU1).fun_add (hS.fun_mul hU2)).div_const (Real.sqrt 1)
    have key := (HasDerivV.smul hF (lineOf_deriv rv)).add (HasDerivV.smul hG (lineOf_deriv vv))
    have h5' := h5
    simp only [stepOf, keplerStep_eq, cF, cG] at h5'
    rw [h5'.unique key]
    simp only [lineOf_zero, hvr, hvv', hdr, hdv, hal, hn1, hsg, c0, c1, c2, c3, c4, Real.sqrt_one, V3.dot]
    ext <;> simp <;> ring
  refine ⟨R, V, h1, eR, h3, hd, ?_⟩
  obtain ⟨k1, -⟩ := C29_curve (t := t) (mu := 1) one_pos hh0 (lineOf_deriv rv) (lineOf_deriv vv)
  simp only [lineOf_zero, hvr, hvv'] at k1
  rw [← h3] at k1
  simp only [hlr, hlv] at k1
  refine k1.congr_deriv ?_
  rw [eV] at h6 ⊢
  rw [hd, hδ] at h6
  have hx := congrArg V3.x h6
  have hy := congrArg V3.y h6
  have hz := congrArg V3.z h6
  simp only [add_x, add_y, add_z, smul_x, smul_y, smul_z] at hx hy hz
  ext
  · simp only [add_x]; linear_combination -hx
  · simp only [add_y]; linear_combination -hy
  · simp only [add_z]; linear_combination -hz

/-- After one turn: `(1, -2π, 0)` instead of `(1, -6π, 0)`. -/
example : ∃ R V, kepler [cst (2 * Real.pi)] (seedR ⟨1, 0, 0⟩ ⟨1, 0, 0⟩) (cstV ⟨0, 1, 0⟩) (cst 1) = some ([R], [V]) ∧
    dots R = ⟨1, -(2 * Real.pi), 0⟩ ∧
    HasDerivV (fun s => (exactProp ⟨1 + s, 0, 0⟩ ⟨0, 1, 0⟩ 1 (2 * Real.pi)).1) ⟨1, -(6 * Real.pi), 0⟩ 0 := by
  obtain ⟨R, V, h1, -, -, h4, h5⟩ := C66_circle_refuted (2 * Real.pi)
  refine ⟨R, V, h1, ?_, h5.congr_deriv ?_⟩
  · rw [h4]; ext <;> simp; norm_num
  · ext <;> simp <;> ring

end

end Adx
