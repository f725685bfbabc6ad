import Verif.Props.C41
import Verif.Props.C87

/-! # C88: the elements under a perturbation

How the quantities the library computes from a state change along a motion with a further acceleration `f` besides the
point mass: Gauss' equations. With the zonal terms for `f`: what the plane of the orbit does. -/

namespace Adx
open V3 Spec

section
variable {q w : ℝ → V3 ℝ} {f : V3 ℝ} {mu t : ℝ}

/-- At time `t` the motion has the velocity `w` and the acceleration of the point mass plus `f`. -/
structure PerturbedAt (mu : ℝ) (f : V3 ℝ) (q w : ℝ → V3 ℝ) (t : ℝ) : Prop where
  /-- away from the attracting centre -/
  avoid : q t ≠ ⟨0, 0, 0⟩
  /-- kinematics -/
  pos : HasDerivV q (w t) t
  /-- dynamics -/
  vel : HasDerivV w ((-(mu / V3.norm (q t) ^ 3)) • q t + f) t

/-- Angular momentum: the torque. -/
theorem C88_momentum (h : PerturbedAt mu f q w t) :
    HasDerivV (fun t => angular_momentum (q t) (w t)) (V3.cross (q t) f) t := by
  refine (h.pos.cross h.vel).congr_deriv ?_
  ext <;> simp only [V3.cross, add_x, add_y, add_z, smul_x, smul_y, smul_z] <;> ring

/-- Semiparameter. -/
theorem C88_semiparameter (h : PerturbedAt mu f q w t) (hh : angular_momentum (q t) (w t) ≠ ⟨0, 0, 0⟩) :
    HasDerivAt (fun t => semiparameter (V3.norm (angular_momentum (q t) (w t))) mu)
      (2 * V3.dot (angular_momentum (q t) (w t)) (V3.cross (q t) f) / mu) t := by
  have hn := ((norm_pos _).2 hh).ne'
  refine ((((C88_momentum h).norm hn).pow 2).div_const mu).congr_deriv ?_
  simp only [Nat.cast_ofNat]
  field_simp
  try ring

/-- Semimajor axis, away from parabolas: the power of the perturbation. -/
theorem C88_semimajor (h : PerturbedAt mu f q w t) (hmu : mu ≠ 0)
    (hα : 2 / V3.norm (q t) - V3.norm (w t) ^ 2 / mu ≠ 0) :
    HasDerivAt (fun t => semimajor_axis (V3.norm (q t)) (V3.norm (w t)) mu)
      (2 * semimajor_axis (V3.norm (q t)) (V3.norm (w t)) mu ^ 2 * V3.dot (w t) f / mu) t := by
  have hn := ((norm_pos _).2 h.avoid).ne'
  have hfun : (fun t => semimajor_axis (V3.norm (q t)) (V3.norm (w t)) mu)
      = fun t => (2 * (V3.norm (q t))⁻¹ - V3.dot (w t) (w t) / mu)⁻¹ := by
    funext s
    simp only [semimajor_axis, norm_sq, Nat.cast_one, Nat.cast_ofNat]
    rw [one_div]
    rfl
  have hα' : 2 * (V3.norm (q t))⁻¹ - V3.dot (w t) (w t) / mu ≠ 0 := by
    rw [← norm_sq, ← div_eq_mul_inv]; exact hα
  have hd := ((((h.pos.norm hn).fun_inv hn).const_mul 2).fun_sub ((h.vel.dot h.vel).div_const mu)).fun_inv hα'
  rw [hfun]
  refine hd.congr_deriv ?_
  rw [congrFun hfun t]
  have e1 : V3.dot ((-(mu / V3.norm (q t) ^ 3)) • q t + f) (w t)
      = -(mu / V3.norm (q t) ^ 3) * V3.dot (q t) (w t) + V3.dot (w t) f := by
    simp only [V3.dot, add_x, add_y, add_z, smul_x, smul_y, smul_z]; ring
  have e2 : V3.dot (w t) ((-(mu / V3.norm (q t) ^ 3)) • q t + f)
      = -(mu / V3.norm (q t) ^ 3) * V3.dot (q t) (w t) + V3.dot (w t) f := by
    simp only [V3.dot, add_x, add_y, add_z, smul_x, smul_y, smul_z]; ring
  rw [e1, e2]
  generalize 2 * (V3.norm (q t))⁻¹ - V3.dot (w t) (w t) / mu = A at *
  field_simp
  ring

/-- Eccentricity vector. -/
theorem C88_eccentricity (h : PerturbedAt mu f q w t) (hmu : mu ≠ 0) :
    HasDerivV (fun t => eccentricity_vector (q t) (w t) mu)
      ((1 / mu) • (V3.cross f (angular_momentum (q t) (w t)) + V3.cross (w t) (V3.cross (q t) f))) t := by
  have hr := h.pos
  have hv := h.vel
  have hn : V3.norm (q t) ≠ 0 := ((norm_pos _).2 h.avoid).ne'
  have h2 := norm_sq (q t)
  have hvv := (hv.dot hv).div_const mu
  have hrv := (hr.dot hv).div_const mu
  have hi := (hr.norm hn).fun_inv hn
  have e1 : (fun s => eccentricity_vector (q s) (w s) mu)
      = fun s => (dot (w s) (w s) / mu - (V3.norm (q s))⁻¹) • q s - (dot (q s) (w s) / mu) • w s := by
    funext s; rw [ecc_eq, one_div]
  rw [e1]
  refine ((HasDerivV.smul (hvv.fun_sub hi) hr).sub (HasDerivV.smul hrv hv)).congr_deriv ?_
  generalize hk : -(mu / V3.norm (q t) ^ 3) = k
  have hd : dot (q t) (k • q t + f) = k * V3.norm (q t) ^ 2 + dot (q t) f := by
    rw [h2]; simp only [dot, smul_x, smul_y, smul_z, add_x, add_y, add_z]; ring
  have hd2 : dot (w t) (k • q t + f) = k * dot (q t) (w t) + dot (w t) f := by
    simp only [dot, smul_x, smul_y, smul_z, add_x, add_y, add_z]; ring
  have hd3 : dot (k • q t + f) (w t) = k * dot (q t) (w t) + dot (w t) f := by
    simp only [dot, smul_x, smul_y, smul_z, add_x, add_y, add_z]; ring
  rw [hd, hd2, hd3]
  have hX : V3.cross f (angular_momentum (q t) (w t)) + V3.cross (w t) (V3.cross (q t) f)
      = (2 * dot (w t) f) • q t - dot (q t) f • w t - dot (q t) (w t) • f := by
    ext <;> simp only [angular_momentum, dot, V3.cross, smul_x, smul_y, smul_z, add_x, add_y, add_z, sub_x, sub_y, sub_z] <;> ring
  rw [hX, ← hk]
  ext <;> simp only [sub_x, sub_y, sub_z, add_x, add_y, add_z, smul_x, smul_y, smul_z] <;> field_simp <;> ring

/-- Eccentricity, off circles. -/
theorem C88_eccentricity_magnitude (h : PerturbedAt mu f q w t) (hmu : mu ≠ 0) (he : eOf (q t) (w t) mu ≠ 0) :
    HasDerivAt (fun t => (rv2coe (q t) (w t) mu).e)
      (V3.dot (eccentricity_vector (q t) (w t) mu)
        (V3.cross f (angular_momentum (q t) (w t)) + V3.cross (w t) (V3.cross (q t) f)) / (mu * eOf (q t) (w t) mu)) t := by
  refine ((C88_eccentricity h hmu).norm he).congr_deriv ?_
  change _ / eOf (q t) (w t) mu = _
  simp only [V3.dot, smul_x, smul_y, smul_z]
  field_simp

theorem dot_pos_momentum (r v : V3 ℝ) : V3.dot r (angular_momentum r v) = 0 := by
  simp only [V3.dot, angular_momentum, V3.cross]; ring

/-- Inclination, off the equator: only the component of the perturbation across the plane matters, times the distance along the node. -/
theorem C88_inclination (h : PerturbedAt mu f q w t) (hN : node_vec (angular_momentum (q t) (w t)) ≠ ⟨0, 0, 0⟩) :
    HasDerivAt (fun t => (rv2coe (q t) (w t) mu).incl)
      (V3.dot (q t) (node_vec (angular_momentum (q t) (w t))) * V3.dot f (angular_momentum (q t) (w t)) /
        (V3.norm (node_vec (angular_momentum (q t) (w t))) * V3.norm (angular_momentum (q t) (w t)) ^ 2)) t := by
  have hm := C88_momentum h
  have h0 := dot_pos_momentum (q t) (w t)
  have hh : angular_momentum (q t) (w t) ≠ ⟨0, 0, 0⟩ := by
    intro h; apply hN; rw [h]; ext <;> simp [node_vec, V3.cross]
  have hn := (norm_pos _).2 hh
  have hNn := (norm_pos _).2 hN
  have hc := hm.z.fun_div (hm.norm hn.ne') hn.ne'
  have hN2 : V3.norm (node_vec (angular_momentum (q t) (w t))) ^ 2
      = (angular_momentum (q t) (w t)).x ^ 2 + (angular_momentum (q t) (w t)).y ^ 2 := by
    rw [norm_sq]; simp only [node_vec, V3.dot, V3.cross, Nat.cast_zero, Nat.cast_one]; ring
  have hh2 := norm_sq (angular_momentum (q t) (w t))
  have hdN : V3.dot (q t) (node_vec (angular_momentum (q t) (w t)))
      = (q t).y * (angular_momentum (q t) (w t)).x - (q t).x * (angular_momentum (q t) (w t)).y := by
    simp only [node_vec, V3.dot, V3.cross, Nat.cast_zero, Nat.cast_one]; ring
  rw [hdN]
  change HasDerivAt (fun t => Real.arccos ((angular_momentum (q t) (w t)).z / V3.norm (angular_momentum (q t) (w t)))) _ t
  generalize V3.norm (node_vec (angular_momentum (q t) (w t))) = n at *
  have hkey : 1 - ((angular_momentum (q t) (w t)).z / V3.norm (angular_momentum (q t) (w t))) ^ 2
      = (n / V3.norm (angular_momentum (q t) (w t))) ^ 2 := by
    rw [div_pow, div_pow]
    field_simp
    rw [hN2, hh2]
    simp only [V3.dot]; ring
  have hpos : 0 < n / V3.norm (angular_momentum (q t) (w t)) := by positivity
  have hc1 : (angular_momentum (q t) (w t)).z / V3.norm (angular_momentum (q t) (w t)) ≠ -1 := by
    intro h; rw [h] at hkey; norm_num at hkey; exact (pow_pos hpos 2).ne' hkey.symm
  have hc2 : (angular_momentum (q t) (w t)).z / V3.norm (angular_momentum (q t) (w t)) ≠ 1 := by
    intro h; rw [h] at hkey; norm_num at hkey; exact (pow_pos hpos 2).ne' hkey.symm
  have hA := (Real.hasDerivAt_arccos hc1 hc2).comp t hc
  rw [hkey, Real.sqrt_sq hpos.le] at hA
  refine hA.congr_deriv ?_
  generalize V3.norm (angular_momentum (q t) (w t)) = H at *
  generalize angular_momentum (q t) (w t) = k at *
  simp only [V3.dot, V3.cross] at *
  field_simp
  rw [hh2]
  linear_combination (f.x * k.y - f.y * k.x) * h0

/-- Node, off the equator: its rate, as the rate of its cosine and sine, so that the jump from `2π` to 0 does not matter. -/
theorem C88_node (h : PerturbedAt mu f q w t) (hN : node_vec (angular_momentum (q t) (w t)) ≠ ⟨0, 0, 0⟩) :
    let rate := (q t).z * V3.dot f (angular_momentum (q t) (w t)) / V3.norm (node_vec (angular_momentum (q t) (w t))) ^ 2
    HasDerivAt (fun t => Real.cos (rv2coe (q t) (w t) mu).raan) (-Real.sin (rv2coe (q t) (w t) mu).raan * rate) t ∧
    HasDerivAt (fun t => Real.sin (rv2coe (q t) (w t) mu).raan) (Real.cos (rv2coe (q t) (w t) mu).raan * rate) t := by
  intro rate
  have hm := C88_momentum h
  have h0 := dot_pos_momentum (q t) (w t)
  have hNd : HasDerivV (fun t => node_vec (angular_momentum (q t) (w t))) (node_vec (V3.cross (q t) f)) t := by
    refine ((hasDerivV_const ⟨((0 : ℕ) : ℝ), ((0 : ℕ) : ℝ), ((1 : ℕ) : ℝ)⟩ t).cross hm).congr_deriv ?_
    ext <;> simp [node_vec, V3.cross]
  have hn := (norm_pos _).2 hN
  have hcs : ∀ N : V3 ℝ, N.z = 0 → N ≠ ⟨0, 0, 0⟩ → Real.cos (right_ascension N) = N.x / V3.norm N ∧
      Real.sin (right_ascension N) = N.y / V3.norm N := by
    intro N hz hN
    have hp := (norm_pos N).2 hN
    have hs : Real.sqrt (N.x ^ 2 + N.y ^ 2) = V3.norm N := by
      simp only [V3.norm, sqrt_real, V3.dot, hz]; congr 1; ring
    have h1 := cos_arctan2 N.y N.x
    have h2 := sin_arctan2 N.y N.x
    rw [hs] at h1 h2
    simp only [right_ascension, arctan2_real, cos_wrapNeg, sin_wrapNeg]
    exact ⟨by rw [eq_div_iff hp.ne']; linarith, by rw [eq_div_iff hp.ne']; linarith⟩
  have hz : ∀ s, (node_vec (angular_momentum (q s) (w s))).z = 0 := fun s => by simp [node_vec, V3.cross]
  have hev : ∀ᶠ s in nhds t, node_vec (angular_momentum (q s) (w s)) ≠ ⟨0, 0, 0⟩ := by
    have hcont : ContinuousAt (fun s => V3.norm (node_vec (angular_momentum (q s) (w s)))) t := (hNd.norm hn.ne').continuousAt
    filter_upwards [hcont.eventually (lt_mem_nhds hn)] with s hs
    exact (norm_pos _).1 hs
  obtain ⟨c0, s0⟩ := hcs _ (hz t) hN
  change HasDerivAt (fun t => Real.cos (right_ascension (node_vec (angular_momentum (q t) (w t)))))
      (-Real.sin (right_ascension (node_vec (angular_momentum (q t) (w t)))) * rate) t ∧
    HasDerivAt (fun t => Real.sin (right_ascension (node_vec (angular_momentum (q t) (w t)))))
      (Real.cos (right_ascension (node_vec (angular_momentum (q t) (w t)))) * rate) t
  rw [c0, s0]
  have hrate : rate = ((node_vec (angular_momentum (q t) (w t))).x * (node_vec (V3.cross (q t) f)).y
      - (node_vec (angular_momentum (q t) (w t))).y * (node_vec (V3.cross (q t) f)).x)
      / V3.norm (node_vec (angular_momentum (q t) (w t))) ^ 2 := by
    simp only [rate]
    congr 1
    generalize angular_momentum (q t) (w t) = k at *
    simp only [node_vec, V3.dot, V3.cross, Nat.cast_zero, Nat.cast_one] at *
    linear_combination f.z * h0
  have hn2 := norm_sq (node_vec (angular_momentum (q t) (w t)))
  have hzz := hz t
  constructor
  · refine HasDerivAt.congr_of_eventuallyEq ?_ (hev.mono fun s hs => (hcs _ (hz s) hs).1)
    refine (hNd.x.fun_div (hNd.norm hn.ne') hn.ne').congr_deriv ?_
    rw [hrate]
    generalize V3.norm (node_vec (angular_momentum (q t) (w t))) = n at *
    generalize node_vec (angular_momentum (q t) (w t)) = N at *
    generalize node_vec (V3.cross (q t) f) = N' at *
    simp only [V3.dot, hzz] at *
    field_simp
    rw [hn2]
    ring
  · refine HasDerivAt.congr_of_eventuallyEq ?_ (hev.mono fun s hs => (hcs _ (hz s) hs).2)
    refine (hNd.y.fun_div (hNd.norm hn.ne') hn.ne').congr_deriv ?_
    rw [hrate]
    generalize V3.norm (node_vec (angular_momentum (q t) (w t))) = n at *
    generalize node_vec (angular_momentum (q t) (w t)) = N at *
    generalize node_vec (V3.cross (q t) f) = N' at *
    simp only [V3.dot, hzz] at *
    field_simp
    rw [hn2]
    ring

/-- The oblateness term: the node of a prograde orbit goes backwards, that of a retrograde one forwards, except at the crossings of the
equator, where it is at rest. -/
theorem C88_node_j2 {args : Args ℝ} {J R : ℝ} {rest : List ℝ} (hm : args "mu" = some mu) (hJ : args "J2" = some J)
    (hR : args "R_eq" = some R) (hf : j2_acc t ⟨q t, rest⟩ args = .ok f) (h : PerturbedAt mu f q w t)
    (hN : node_vec (angular_momentum (q t) (w t)) ≠ ⟨0, 0, 0⟩) :
    let rate := -(3 * mu * J * R ^ 2 * (q t).z ^ 2 * (angular_momentum (q t) (w t)).z)
      / (V3.norm (q t) ^ 5 * V3.norm (node_vec (angular_momentum (q t) (w t))) ^ 2)
    HasDerivAt (fun t => Real.cos (rv2coe (q t) (w t) mu).raan) (-Real.sin (rv2coe (q t) (w t) mu).raan * rate) t ∧
    HasDerivAt (fun t => Real.sin (rv2coe (q t) (w t) mu).raan) (Real.cos (rv2coe (q t) (w t) mu).raan * rate) t := by
  intro rate
  have key : (q t).z * V3.dot f (angular_momentum (q t) (w t)) / V3.norm (node_vec (angular_momentum (q t) (w t))) ^ 2 = rate := by
    have hn := (norm_pos _).2 h.avoid
    have hNn := (norm_pos _).2 hN
    have h0 := dot_pos_momentum (q t) (w t)
    simp only [j2_acc, Args.get, hm, hJ, hR, bind, Except.bind, pure, Except.pure, Except.ok.injEq] at hf
    rw [← hf]
    simp only [rate]
    generalize V3.norm (node_vec (angular_momentum (q t) (w t))) = n at *
    generalize angular_momentum (q t) (w t) = k at *
    generalize V3.norm (q t) = ρ at *
    simp only [V3.dot, Nat.cast_ofNat, Nat.cast_one] at *
    field_simp
    linear_combination (-(mu * J * R ^ 2) * (ρ ^ 2 - 5 * (q t).z ^ 2) * (q t).z) * h0
  rw [← key]
  exact C88_node h hN

end

section
variable {args : Args ℝ} {S : Set ℝ} {r v : ℝ → V3 ℝ} {mu : ℝ}

/-- A zonal perturbation pushes in the meridian plane. -/
theorem zonal_meridian (h : ZonalTrajectory args S r v) (hm : args "mu" = some mu) {s : ℝ} (hs : s ∈ S) :
    ∃ (f : V3 ℝ) (A B : ℝ), PerturbedAt mu f r v s ∧ f = A • r s + (⟨0, 0, B⟩ : V3 ℝ) := by
  obtain ⟨a0, a2, a3, a4, rest, e0, e2, e3, e4, hv⟩ := h.vel s hs
  have h0 : a0 = (-(mu / V3.norm (r s) ^ 3)) • r s := by
    rw [C41_point_mass_is_newton s mu ⟨r s, rest⟩ args hm] at e0
    exact (Except.ok.inj e0).symm
  have p2 : ∃ A, a2.x = A * (r s).x ∧ a2.y = A * (r s).y := by
    rcases hj : args "J2" with _ | J <;> rcases hR : args "R_eq" with _ | R <;>
      simp only [j2_acc, Args.get, hm, hj, hR, bind, Except.bind, pure, Except.pure, reduceCtorEq,
        Except.ok.injEq] at e2
    rw [← e2]
    exact ⟨_, mul_right_comm _ _ _, mul_right_comm _ _ _⟩
  have p3 : ∃ A, a3.x = A * (r s).x ∧ a3.y = A * (r s).y := by
    rcases hj : args "J3" with _ | J <;> rcases hR : args "R_eq" with _ | R <;>
      simp only [j3_acc, Args.get, hm, hj, hR, bind, Except.bind, pure, Except.pure, reduceCtorEq,
        Except.ok.injEq] at e3
    rw [← e3]
    exact ⟨_, mul_right_comm _ _ _, mul_right_comm _ _ _⟩
  have p4 : ∃ A, a4.x = A * (r s).x ∧ a4.y = A * (r s).y := by
    rcases hj : args "J4" with _ | J <;> rcases hR : args "R_eq" with _ | R <;>
      simp only [j4_acc, Args.get, hm, hj, hR, bind, Except.bind, pure, Except.pure, reduceCtorEq,
        Except.ok.injEq] at e4
    rw [← e4]
    exact ⟨_, mul_right_comm _ _ _, mul_right_comm _ _ _⟩
  obtain ⟨A2, x2, y2⟩ := p2
  obtain ⟨A3, x3, y3⟩ := p3
  obtain ⟨A4, x4, y4⟩ := p4
  refine ⟨a2 + a3 + a4, A2 + A3 + A4, a2.z + a3.z + a4.z - (A2 + A3 + A4) * (r s).z,
    ⟨h.avoid s hs, h.pos s hs, hv.congr_deriv ?_⟩, ?_⟩
  · rw [h0]; ext <;> simp only [add_x, add_y, add_z] <;> ring
  · ext <;> simp only [add_x, add_y, add_z, smul_x, smul_y, smul_z, x2, x3, x4, y2, y3, y4] <;> ring

/-- Along every motion of the zonal model `p cos² i`, with the elements `rv2coe` returns, is constant. -/
theorem C88_kozai (hS : IsOpen S) (hS' : IsPreconnected S) (h : ZonalTrajectory args S r v)
    (hh : ∀ s ∈ S, angular_momentum (r s) (v s) ≠ ⟨0, 0, 0⟩) {s t : ℝ} (hs : s ∈ S) (ht : t ∈ S) :
    (rv2coe (r s) (v s) mu).p * Real.cos (rv2coe (r s) (v s) mu).incl ^ 2
      = (rv2coe (r t) (v t) mu).p * Real.cos (rv2coe (r t) (v t) mu).incl ^ 2 := by
  have key : ∀ s ∈ S, (rv2coe (r s) (v s) mu).p * Real.cos (rv2coe (r s) (v s) mu).incl ^ 2
      = (angular_momentum (r s) (v s)).z ^ 2 / mu := by
    intro s hs
    have hn := (norm_pos _).2 (hh s hs)
    have hz : (angular_momentum (r s) (v s)).z ^ 2 ≤ V3.norm (angular_momentum (r s) (v s)) ^ 2 := by
      rw [norm_sq]; simp only [V3.dot]; nlinarith [sq_nonneg (angular_momentum (r s) (v s)).x, sq_nonneg (angular_momentum (r s) (v s)).y]
    have habs := abs_le_of_sq_le_sq' hz hn.le
    change semiparameter (V3.norm (angular_momentum (r s) (v s))) mu *
      Real.cos (Real.arccos ((angular_momentum (r s) (v s)).z / V3.norm (angular_momentum (r s) (v s)))) ^ 2 = _
    rw [Real.cos_arccos (by rw [le_div_iff₀ hn]; linarith [habs.1]) (by rw [div_le_iff₀ hn]; linarith [habs.2])]
    simp only [semiparameter]
    field_simp
  rw [key s hs, key t ht, C41_hz hS hS' h hs ht]

/-- The plane of a polar orbit does not move under the zonal model: inclination and node stay as they are. -/
theorem C88_polar (hS : IsOpen S) (hS' : IsPreconnected S) (h : ZonalTrajectory args S r v) (hm : args "mu" = some mu)
    (hh : ∀ s ∈ S, angular_momentum (r s) (v s) ≠ ⟨0, 0, 0⟩) {s t : ℝ} (hs : s ∈ S) (ht : t ∈ S)
    (hp : (angular_momentum (r s) (v s)).z = 0) :
    (rv2coe (r t) (v t) mu).incl = Real.pi / 2 ∧ (rv2coe (r t) (v t) mu).raan = (rv2coe (r s) (v s) mu).raan := by
  have hz : ∀ u ∈ S, (angular_momentum (r u) (v u)).z = 0 := fun u hu => by rw [C41_hz hS hS' h hu hs, hp]
  have hN : ∀ u ∈ S, node_vec (angular_momentum (r u) (v u)) ≠ ⟨0, 0, 0⟩ := by
    intro u hu h0
    apply hh u hu
    simp only [node_vec, V3.cross, Nat.cast_zero, Nat.cast_one, V3.mk.injEq] at h0
    ext
    · simpa using h0.2.1
    · simpa using h0.1
    · exact hz u hu
  have hrate : ∀ u ∈ S, ∃ f, PerturbedAt mu f r v u ∧ V3.dot f (angular_momentum (r u) (v u)) = 0 := by
    intro u hu
    obtain ⟨f, A, B, hf, hAB⟩ := zonal_meridian h hm hu
    refine ⟨f, hf, ?_⟩
    have h0 := dot_pos_momentum (r u) (v u)
    have h1 := hz u hu
    rw [hAB]
    generalize angular_momentum (r u) (v u) = k at *
    simp only [V3.dot, add_x, add_y, add_z, smul_x, smul_y, smul_z] at *
    linear_combination A * h0 + B * h1
  have hc : Real.cos (rv2coe (r t) (v t) mu).raan = Real.cos (rv2coe (r s) (v s) mu).raan := by
    refine const_of_hasDerivAt hS hS' (f := fun u => Real.cos (rv2coe (r u) (v u) mu).raan) (fun u hu => ?_) ht hs
    obtain ⟨f, hf, h0⟩ := hrate u hu
    refine (C88_node hf (hN u hu)).1.congr_deriv ?_
    rw [h0]; ring
  have hsn : Real.sin (rv2coe (r t) (v t) mu).raan = Real.sin (rv2coe (r s) (v s) mu).raan := by
    refine const_of_hasDerivAt hS hS' (f := fun u => Real.sin (rv2coe (r u) (v u) mu).raan) (fun u hu => ?_) ht hs
    obtain ⟨f, hf, h0⟩ := hrate u hu
    refine (C88_node hf (hN u hu)).2.congr_deriv ?_
    rw [h0]; ring
  constructor
  · change Real.arccos ((angular_momentum (r t) (v t)).z / V3.norm (angular_momentum (r t) (v t))) = _
    rw [hz t ht, zero_div, Real.arccos_zero]
  · have range : ∀ u, 0 ≤ (rv2coe (r u) (v u) mu).raan ∧ (rv2coe (r u) (v u) mu).raan < 2 * Real.pi := fun u =>
      ⟨(wrapNeg_arg_range _).1, (wrapNeg_arg_range _).2⟩
    obtain ⟨a0, a1⟩ := range t
    obtain ⟨b0, b1⟩ := range s
    have hd : Real.cos ((rv2coe (r t) (v t) mu).raan - (rv2coe (r s) (v s) mu).raan) = 1 := by
      rw [Real.cos_sub, hc, hsn, ← sq, ← sq]; linarith [Real.sin_sq_add_cos_sq (rv2coe (r s) (v s) mu).raan]
    have := (Real.cos_eq_one_iff_of_lt_of_lt (by linarith) (by linarith)).1 hd
    linarith

end

/-- Non-vacuity: an inclined prograde state above the equator, with the oblateness term; the node goes back. -/
example : ∃ (q w : ℝ → V3 ℝ) (f : V3 ℝ) (args : Args ℝ), j2_acc 0 ⟨q 0, []⟩ args = .ok f ∧ PerturbedAt 1 f q w 0 ∧
    node_vec (angular_momentum (q 0) (w 0)) ≠ ⟨0, 0, 0⟩ ∧ args "mu" = some 1 ∧ args "J2" = some 1 ∧ args "R_eq" = some 1 ∧
    0 < (angular_momentum (q 0) (w 0)).z ∧ (q 0).z ≠ 0 := by
  let args : Args ℝ := fun _ => some 1
  obtain ⟨f, hf⟩ : ∃ f, j2_acc 0 ⟨⟨1, 0, 1⟩, []⟩ args = .ok f := by
    simp only [j2_acc, Args.get, args, bind, Except.bind, pure, Except.pure]
    exact ⟨_, rfl⟩
  let a : V3 ℝ := (-(1 / V3.norm (⟨1, 0, 1⟩ : V3 ℝ) ^ 3)) • ⟨1, 0, 1⟩ + f
  have line : ∀ p d : V3 ℝ, HasDerivV (fun t : ℝ => p + t • d) d 0 := fun p d =>
    (((hasDerivV_const p 0).add (HasDerivV.smul (hasDerivAt_id (0 : ℝ)) (hasDerivV_const d 0)))).congr_deriv (by
      ext <;> simp)
  have z0 : ∀ p d : V3 ℝ, p + (0 : ℝ) • d = p := fun p d => by ext <;> simp
  refine ⟨fun t => ⟨1, 0, 1⟩ + t • (⟨0, 1, 0⟩ : V3 ℝ), fun t => ⟨0, 1, 0⟩ + t • a, f, args, ?_, ⟨?_, ?_, ?_⟩, ?_, rfl, rfl, rfl, ?_, ?_⟩
  all_goals simp only [z0]
  · exact hf
  · simp
  · exact line _ _
  · exact line _ _
  · simp [node_vec, angular_momentum, V3.cross]
  · simp [angular_momentum, V3.cross]
  · simp

end Adx
