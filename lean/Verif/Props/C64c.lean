import Verif.Props.C64b

/-! # C64, third part: `dxdx0` off the parabolas, `coe2rv`, the rotation matrices and `nmax_by_periapsis` on traced IEEE
values -/

namespace Adx
open XR (fin pinf ninf nan)
open XRDual

variable {mu p e f incl raan argp dt r1 r2 rp tof F G C Ft Gt a : Dual ℝ} {R V rv vv u w : V3 (Dual ℝ)} {m n : M3 (Dual ℝ)}

/-- A finite traced matrix. -/
noncomputable def dmat (m : M3 (Dual ℝ)) : M3 (Dual XR) := ⟨dvec m.r0, dvec m.r1, dvec m.r2⟩

/-- Four finite traced blocks. -/
noncomputable def dblk (b : B6 (Dual ℝ)) : B6 (Dual XR) := ⟨dmat b.rr, dmat b.rv, dmat b.vr, dmat b.vv⟩

namespace XRDual

theorem madd : dmat m + dmat n = dmat (m + n) := M3.ext (vadd ..) (vadd ..) (vadd ..)
theorem msub : dmat m - dmat n = dmat (m - n) := M3.ext (vsub ..) (vsub ..) (vsub ..)
theorem mneg : -dmat m = dmat (-m) := M3.ext (vneg ..) (vneg ..) (vneg ..)
theorem msmul : dfin a • dmat m = dmat (a • m) := M3.ext (vsmul ..) (vsmul ..) (vsmul ..)
theorem mdiv (h : a.val ≠ 0) : dmat m / dfin a = dmat (m / a) := M3.ext (vdiv _ h) (vdiv _ h) (vdiv _ h)
theorem mouter : M3.outer (dvec u) (dvec w) = dmat (M3.outer u w) := M3.ext (vsmul ..) (vsmul ..) (vsmul ..)
theorem meye : (M3.eye : M3 (Dual XR)) = dmat M3.eye := rfl
theorem mmulVec : M3.mulVec (dmat m) (dvec u) = dvec (M3.mulVec m u) := V3.ext (vdot ..) (vdot ..) (vdot ..)
theorem mmul : M3.mul (dmat m) (dmat n) = dmat (M3.mul m n) := by
  refine M3.ext (V3.ext ?_ ?_ ?_) (V3.ext ?_ ?_ ?_) (V3.ext ?_ ?_ ?_) <;>
    simp [M3.mul, dmat, M3.transpose]

end XRDual

/-! ### Rotations and `coe2rv` -/

theorem C64_rotmat (a : Dual ℝ) : rotmat3dx (dfin a) = dmat (rotmat3dx a) ∧ rotmat3dy (dfin a) = dmat (rotmat3dy a) ∧
    rotmat3dz (dfin a) = dmat (rotmat3dz a) := by
  refine ⟨?_, ?_, ?_⟩ <;> simp [rotmat3dx, rotmat3dy, rotmat3dz, dmat]

/-- C64: `coe2rv` has finite tangents with respect to all six elements and `mu`, except where `1 + e cos f = 0`. -/
theorem C64_coe2rv (hp : 0 < p.val) (hm : 0 < mu.val) (hf : 1 + e.val * Real.cos f.val ≠ 0) :
    coe2rv (dfin p) (dfin e) (dfin incl) (dfin raan) (dfin argp) (dfin f) (dfin mu)
      = (dvec (coe2rv p e incl raan argp f mu).1, dvec (coe2rv p e incl raan argp f mu).2) := by
  have h1 : (((1 : ℕ) : Dual ℝ) + e * JFun.cos f).val ≠ 0 := by
    show ((1 : ℕ) : ℝ) + e.val * Real.cos f.val ≠ 0
    simpa using hf
  have h2 : 0 < (mu / p).val := div_pos hm hp
  have e1 : perifocalPos (dfin p) (dfin e) (dfin f) = dvec (perifocalPos p e f) := by
    simp only [perifocalPos, nat, cos, sin, mul, add, div h1, vmk, vsmul]
  have e2 : perifocalVel (dfin p) (dfin e) (dfin f) (dfin mu) = dvec (perifocalVel p e f mu) := by
    simp only [perifocalVel, nat, cos, sin, neg, add, div hp.ne', sqrt h2, vmk, vsmul]
  simp only [coe2rv, e1, e2, perifocalToInertial, (C64_rotmat _).1, (C64_rotmat _).2.2, mmul, mmulVec]

/-! ### `nmax_by_periapsis` -/

/-- C64: the maximal number of revolutions has finite tangents as soon as the smallest semimajor axis is positive. -/
theorem C64_nmax (hm : 0 < mu.val) (hr : 0 < max r1.val r2.val + rp.val) :
    nmax_by_periapsis (dfin rp) (dfin r1) (dfin r2) (dfin tof) (dfin mu) = dfin (nmax_by_periapsis rp r1 r2 tof mu) := by
  have h2 : ((2 : ℕ) : Dual ℝ).val ≠ 0 := by show ((2 : ℕ) : ℝ) ≠ 0; norm_num
  have hpi : (((2 : ℕ) : Dual ℝ) * JFun.pi).val ≠ 0 := by
    show ((2 : ℕ) : ℝ) * Real.pi ≠ 0
    have := Real.pi_pos
    positivity
  have ha : 0 < ((((1 : ℕ) : Dual ℝ) / ((2 : ℕ) : Dual ℝ) * (JFun.maximum r1 r2 + rp)) ^ 3).val := by
    show 0 < (((1 : ℕ) : ℝ) / ((2 : ℕ) : ℝ) * (max r1.val r2.val + rp.val)) ^ 3
    positivity
  have hq : 0 < (mu / (((1 : ℕ) : Dual ℝ) / ((2 : ℕ) : Dual ℝ) * (JFun.maximum r1 r2 + rp)) ^ 3).val := div_pos hm ha
  simp only [nmax_by_periapsis, nat, pi, div h2, maximum, add, mul, pow, div ha.ne', sqrt hq, div hpi, floor]

/-! ### The transition matrix -/

theorem C64_prpr0 (hR : R.vals ≠ ⟨0, 0, 0⟩) (hr : rv.vals ≠ ⟨0, 0, 0⟩) (hm : mu.val ≠ 0) :
    prpr0 (dvec R) (dvec V) (dvec rv) (dvec vv) (dfin F) (dfin C) (dfin mu) = dmat (prpr0 R V rv vv F C mu) := by
  have h0 := (norm_val_pos hr).ne'
  have h2 : (V3.norm rv ^ 2).val ≠ 0 := pow_ne_zero 2 h0
  simp only [prpr0, C64_norm hR, C64_norm hr, div hm, vsub, mouter, msmul, vdiv _ h0, nat, sub, pow, div h2, madd, meye]

theorem C64_prpv0 (hr : rv.vals ≠ ⟨0, 0, 0⟩) (hm : mu.val ≠ 0) :
    prpv0 (dvec R) (dvec V) (dvec rv) (dvec vv) (dfin F) (dfin G) (dfin C) (dfin mu) = dmat (prpv0 R V rv vv F G C mu) := by
  simp only [prpv0, C64_norm hr, div hm, vsub, mouter, msmul, nat, sub, mul, madd, msub, meye]

theorem C64_pvpr0 (hR : R.vals ≠ ⟨0, 0, 0⟩) (hr : rv.vals ≠ ⟨0, 0, 0⟩) (hm : mu.val ≠ 0) :
    pvpr0 (dvec R) (dvec V) (dvec rv) (dvec vv) (dfin Ft) (dfin C) (dfin mu) = dmat (pvpr0 R V rv vv Ft C mu) := by
  have h0 := (norm_val_pos hr).ne'
  have h1 := (norm_val_pos hR).ne'
  have h2 : (V3.norm rv ^ 2).val ≠ 0 := pow_ne_zero 2 h0
  have h3 : (V3.norm R ^ 2).val ≠ 0 := pow_ne_zero 2 h1
  simp only [pvpr0, C64_norm hR, C64_norm hr, pow, vdiv _ h0, vdiv _ h1, vdiv _ h2, vdiv _ h3, div h3, div h2, vsub, mouter, msub, mneg,
    mdiv hm, mmul, meye, madd, msmul, mul]

theorem C64_pvpv0 (hR : R.vals ≠ ⟨0, 0, 0⟩) (hr : rv.vals ≠ ⟨0, 0, 0⟩) (hm : mu.val ≠ 0) :
    pvpv0 (dvec R) (dvec V) (dvec rv) (dvec vv) (dfin F) (dfin Gt) (dfin C) (dfin mu) = dmat (pvpv0 R V rv vv F Gt C mu) := by
  have h1 := (norm_val_pos hR).ne'
  have h3 : (V3.norm R ^ 2).val ≠ 0 := pow_ne_zero 2 h1
  simp only [pvpv0, C64_norm hR, C64_norm hr, pow, vdiv _ h1, div h3, vsub, mouter, msub, div hm, mdiv h1, meye, madd, msmul, nat, sub]

/-- C64: off the parabolas every entry of the transition matrix `dxdx0` has a finite tangent with respect to both states, the time
and `mu`. On the parabolas every entry has a NaN tangent (`C64_dxdx0_parabola_refuted`). -/
theorem C64_dxdx0 (hmu : 0 < mu.val) (hR : R.vals ≠ ⟨0, 0, 0⟩) (hr : rv.vals ≠ ⟨0, 0, 0⟩) (hv : vv.vals ≠ ⟨0, 0, 0⟩)
    (ha : alphaOf rv.vals vv.vals mu.val ≠ 0) :
    dxdx0 (dvec R) (dvec V) (dvec rv) (dvec vv) (dfin dt) (dfin mu) = dblk (dxdx0 R V rv vv dt mu) := by
  have hA := C64_alpha hmu hr hv ha
  have hs : (JFun.sqrt mu : Dual ℝ).val ≠ 0 := (Real.sqrt_pos.2 hmu).ne'
  have h0 := (norm_val_pos hr).ne'
  have h1 := (norm_val_pos hR).ne'
  have hga : ∀ al s s0 : Dual ℝ, generalized_anomaly (dfin al) (dfin s) (dfin s0) (dfin dt) (dfin mu)
      = dfin (generalized_anomaly al s s0 dt mu) := fun al s s0 => by
    simp only [generalized_anomaly, sqrt hmu, mul, add, sub]
  have hC : ∀ chi U2 U4 U5 : Dual ℝ, C_func (dfin chi) (dfin U2) (dfin U4) (dfin U5) (dfin dt) (dfin mu)
      = dfin (C_func chi U2 U4 U5 dt mu) := fun chi U2 U4 U5 => by
    simp only [C_func, sqrt hmu, mul, sub, nat, div hs]
  have hU := fun chi al => C64_ufunc chi al
  simp only [dxdx0, hA, C64_sigma_fn hmu, hga]
  set chi := generalized_anomaly (dalpha rv vv mu) (sigma_fn R V mu) (sigma_fn rv vv mu) dt mu with hchi
  obtain ⟨-, u1, u2, -, u4, u5⟩ := hU chi (dalpha rv vv mu)
  have hL := fun U1 U2 s0 => C64_lagrange (U1 := U1) (U2 := U2) (s0 := s0) (r := V3.norm R) (r0 := V3.norm rv) (mu := mu) h1 h0 hmu
  obtain ⟨l1, l2, l3, l4⟩ := hL (ufunc1 chi (dalpha rv vv mu)) (ufunc2 chi (dalpha rv vv mu)) (sigma_fn rv vv mu)
  simp only [u1, u2, u4, u5, hC, C64_norm hR, C64_norm hr, l1, l2, l3, l4, C64_prpr0 hR hr hmu.ne', C64_prpv0 hr hmu.ne',
    C64_pvpr0 hR hr hmu.ne', C64_pvpv0 hR hr hmu.ne']
  rfl

/-- The unit circle, differentiated with respect to the first coordinate: all entries finite. -/
example (t : Dual ℝ) : dxdx0 (dvec (seedX ⟨0, 1, 0⟩)) (dvec (cstV ⟨-1, 0, 0⟩)) (dvec (seedX ⟨1, 0, 0⟩)) (dvec (cstV ⟨0, 1, 0⟩))
    (dfin t) (dfin (cst 1)) = dblk (dxdx0 (seedX ⟨0, 1, 0⟩) (cstV ⟨-1, 0, 0⟩) (seedX ⟨1, 0, 0⟩) (cstV ⟨0, 1, 0⟩) t (cst 1)) := by
  have h3 : ∀ {x y z : ℝ}, x ≠ 0 ∨ y ≠ 0 → (⟨x, y, z⟩ : V3 ℝ) ≠ ⟨0, 0, 0⟩ := by
    rintro x y z (h | h) h'
    · exact h (congrArg V3.x h')
    · exact h (congrArg V3.y h')
  have hal : alphaOf (⟨1, 0, 0⟩ : V3 ℝ) ⟨0, 1, 0⟩ 1 = 1 := by
    simp only [alphaOf, V3.norm, V3.dot, semimajor_axis]; norm_num
  refine C64_dxdx0 (mu := cst 1) one_pos (h3 (Or.inr ?_)) (h3 (Or.inl ?_)) (h3 (Or.inr ?_)) ?_
  · exact one_ne_zero
  · exact one_ne_zero
  · exact one_ne_zero
  · intro h
    exact one_ne_zero (hal.symm.trans h)

end Adx
