import Verif.Props.C40
import Verif.Model.RotMat

/-! # C42: symmetries of the zonal accelerations -/

namespace Adx
open V3 Spec

/-- `f` is what the library computes for the acceleration field `acc` as a function of position. -/
def IsField (acc : ℝ → State ℝ → Args ℝ → Except PyErr (V3 ℝ)) (args : Args ℝ) (f : V3 ℝ → V3 ℝ) : Prop :=
  ∀ t rest p, acc t ⟨p, rest⟩ args = .ok (f p)

/-- Divergence of `f` at `p` is zero (sum of the three partial derivatives). -/
def DivFreeAt (f : V3 ℝ → V3 ℝ) (p : V3 ℝ) : Prop :=
  ∃ dx dy dz, HasDerivAt (fun s => (f ⟨s, p.y, p.z⟩).x) dx p.x ∧
    HasDerivAt (fun s => (f ⟨p.x, s, p.z⟩).y) dy p.y ∧
    HasDerivAt (fun s => (f ⟨p.x, p.y, s⟩).z) dz p.z ∧ dx + dy + dz = 0

/-- Reflection in the equatorial plane. -/
def mirror (p : V3 ℝ) : V3 ℝ := ⟨p.x, p.y, -p.z⟩

variable {args : Args ℝ} {mu J R : ℝ} {f : V3 ℝ → V3 ℝ}

theorem field_pm (h : IsField point_mass_grav args f) (hm : args "mu" = some mu) (p : V3 ℝ) :
    f p = (-(mu / V3.norm p ^ 3)) • p := by
  have := h 0 [] p
  simp only [point_mass_grav, Args.get, hm, bind, Except.bind, pure, Except.pure, Except.ok.injEq] at this
  exact this.symm

theorem norm_rotz (a : ℝ) (p : V3 ℝ) : V3.norm (M3.mulVec (rotmat3dz a) p) = V3.norm p := by
  simp only [V3.norm, sqrt_real]
  congr 1
  simp only [M3.mulVec, rotmat3dz, dot, sin_real, cos_real, Nat.cast_zero, Nat.cast_one]
  linear_combination (p.x ^ 2 + p.y ^ 2) * Real.sin_sq_add_cos_sq a

theorem norm_mirror (p : V3 ℝ) : V3.norm (mirror p) = V3.norm p := by
  simp only [V3.norm, mirror, dot, sqrt_real]; congr 1; ring

theorem norm_scale {k : ℝ} (hk : 0 < k) (p : V3 ℝ) : V3.norm (k • p) = k * V3.norm p := by
  rw [norm_smul, abs_of_pos hk]

/-- C42: rotation about the polar axis commutes with all four accelerations. -/
theorem C42_axial {f0 f2 f3 f4 : V3 ℝ → V3 ℝ} (h0 : IsField point_mass_grav args f0)
    (h2 : IsField j2_acc args f2) (h3 : IsField j3_acc args f3) (h4 : IsField j4_acc args f4)
    (a : ℝ) (p : V3 ℝ) :
    f0 (M3.mulVec (rotmat3dz a) p) = M3.mulVec (rotmat3dz a) (f0 p) ∧
    f2 (M3.mulVec (rotmat3dz a) p) = M3.mulVec (rotmat3dz a) (f2 p) ∧
    f3 (M3.mulVec (rotmat3dz a) p) = M3.mulVec (rotmat3dz a) (f3 p) ∧
    f4 (M3.mulVec (rotmat3dz a) p) = M3.mulVec (rotmat3dz a) (f4 p) := by
  have hz : (M3.mulVec (rotmat3dz a) p).z = p.z := by
    simp [M3.mulVec, rotmat3dz, dot]
  have hn := norm_rotz a p
  refine ⟨?_, ?_, ?_, ?_⟩
  · have e1 := h0 0 [] p
    have e2 := h0 0 [] (M3.mulVec (rotmat3dz a) p)
    rcases hm : args "mu" with _ | mu <;>
      simp only [point_mass_grav, Args.get, hm, bind, Except.bind, pure, Except.pure, reduceCtorEq,
        Except.ok.injEq, hn, hz] at e1 e2
    rw [← e1, ← e2]
    ext <;> simp only [M3.mulVec, rotmat3dz, dot, sin_real, cos_real, Nat.cast_zero, Nat.cast_one] <;> ring
  · have e1 := h2 0 [] p
    have e2 := h2 0 [] (M3.mulVec (rotmat3dz a) p)
    rcases hm : args "mu" with _ | mu <;> rcases hj : args "J2" with _ | J <;>
      rcases hR : args "R_eq" with _ | R <;>
      simp only [j2_acc, Args.get, hm, hj, hR, bind, Except.bind, pure, Except.pure, reduceCtorEq,
        Except.ok.injEq, hn, hz] at e1 e2
    rw [← e1, ← e2]
    ext <;> simp only [M3.mulVec, rotmat3dz, dot, sin_real, cos_real, Nat.cast_zero, Nat.cast_one] <;> ring
  · have e1 := h3 0 [] p
    have e2 := h3 0 [] (M3.mulVec (rotmat3dz a) p)
    rcases hm : args "mu" with _ | mu <;> rcases hj : args "J3" with _ | J <;>
      rcases hR : args "R_eq" with _ | R <;>
      simp only [j3_acc, Args.get, hm, hj, hR, bind, Except.bind, pure, Except.pure, reduceCtorEq,
        Except.ok.injEq, hn, hz] at e1 e2
    rw [← e1, ← e2]
    ext <;> simp only [M3.mulVec, rotmat3dz, dot, sin_real, cos_real, Nat.cast_zero, Nat.cast_one] <;> ring
  · have e1 := h4 0 [] p
    have e2 := h4 0 [] (M3.mulVec (rotmat3dz a) p)
    rcases hm : args "mu" with _ | mu <;> rcases hj : args "J4" with _ | J <;>
      rcases hR : args "R_eq" with _ | R <;>
      simp only [j4_acc, Args.get, hm, hj, hR, bind, Except.bind, pure, Except.pure, reduceCtorEq,
        Except.ok.injEq, hn, hz] at e1 e2
    rw [← e1, ← e2]
    ext <;> simp only [M3.mulVec, rotmat3dz, dot, sin_real, cos_real, Nat.cast_zero, Nat.cast_one] <;> ring

/-- C42: reflection in the equator: even zonals commute with it, `J3` anticommutes. -/
theorem C42_mirror {f0 f2 f3 f4 : V3 ℝ → V3 ℝ} (h0 : IsField point_mass_grav args f0)
    (h2 : IsField j2_acc args f2) (h3 : IsField j3_acc args f3) (h4 : IsField j4_acc args f4) (p : V3 ℝ) :
    f0 (mirror p) = mirror (f0 p) ∧ f2 (mirror p) = mirror (f2 p) ∧
    f3 (mirror p) = mirror (-f3 p) ∧ f4 (mirror p) = mirror (f4 p) := by
  have hn := norm_mirror p
  refine ⟨?_, ?_, ?_, ?_⟩
  · have e1 := h0 0 [] p
    have e2 := h0 0 [] (mirror p)
    rcases hm : args "mu" with _ | mu <;>
      simp only [point_mass_grav, Args.get, hm, bind, Except.bind, pure, Except.pure, reduceCtorEq,
        Except.ok.injEq, hn] at e1 e2
    rw [← e1, ← e2]
    ext <;> simp only [mirror] <;> ring
  · have e1 := h2 0 [] p
    have e2 := h2 0 [] (mirror p)
    rcases hm : args "mu" with _ | mu <;> rcases hj : args "J2" with _ | J <;>
      rcases hR : args "R_eq" with _ | R <;>
      simp only [j2_acc, Args.get, hm, hj, hR, bind, Except.bind, pure, Except.pure, reduceCtorEq,
        Except.ok.injEq, hn] at e1 e2
    rw [← e1, ← e2]
    ext <;> simp only [mirror] <;> ring
  · have e1 := h3 0 [] p
    have e2 := h3 0 [] (mirror p)
    rcases hm : args "mu" with _ | mu <;> rcases hj : args "J3" with _ | J <;>
      rcases hR : args "R_eq" with _ | R <;>
      simp only [j3_acc, Args.get, hm, hj, hR, bind, Except.bind, pure, Except.pure, reduceCtorEq,
        Except.ok.injEq, hn] at e1 e2
    rw [← e1, ← e2]
    ext <;> simp only [mirror, neg_x, neg_y, neg_z] <;> ring
  · have e1 := h4 0 [] p
    have e2 := h4 0 [] (mirror p)
    rcases hm : args "mu" with _ | mu <;> rcases hj : args "J4" with _ | J <;>
      rcases hR : args "R_eq" with _ | R <;>
      simp only [j4_acc, Args.get, hm, hj, hR, bind, Except.bind, pure, Except.pure, reduceCtorEq,
        Except.ok.injEq, hn] at e1 e2
    rw [← e1, ← e2]
    ext <;> simp only [mirror] <;> ring

/-- C42: homogeneity: scaling the position by `k > 0` scales the accelerations by `k^{-2}`, `k^{-4}`,
`k^{-5}`, `k^{-6}`. -/
theorem C42_homogeneous {f0 f2 f3 f4 : V3 ℝ → V3 ℝ} (h0 : IsField point_mass_grav args f0)
    (h2 : IsField j2_acc args f2) (h3 : IsField j3_acc args f3) (h4 : IsField j4_acc args f4)
    {k : ℝ} (hk : 0 < k) {p : V3 ℝ} (hp : p ≠ ⟨0, 0, 0⟩) :
    f0 (k • p) = (1 / k ^ 2) • f0 p ∧ f2 (k • p) = (1 / k ^ 4) • f2 p ∧
    f3 (k • p) = (1 / k ^ 5) • f3 p ∧ f4 (k • p) = (1 / k ^ 6) • f4 p := by
  have hn := norm_scale hk p
  have hp' := (norm_pos p).2 hp
  refine ⟨?_, ?_, ?_, ?_⟩
  · have e1 := h0 0 [] p
    have e2 := h0 0 [] (k • p)
    rcases hm : args "mu" with _ | mu <;>
      simp only [point_mass_grav, Args.get, hm, bind, Except.bind, pure, Except.pure, reduceCtorEq,
        Except.ok.injEq, hn] at e1 e2
    rw [← e1, ← e2]
    ext <;> simp only [smul_x, smul_y, smul_z] <;> field_simp
  · have e1 := h2 0 [] p
    have e2 := h2 0 [] (k • p)
    rcases hm : args "mu" with _ | mu <;> rcases hj : args "J2" with _ | J <;>
      rcases hR : args "R_eq" with _ | R <;>
      simp only [j2_acc, Args.get, hm, hj, hR, bind, Except.bind, pure, Except.pure, reduceCtorEq,
        Except.ok.injEq, hn] at e1 e2
    rw [← e1, ← e2]
    ext <;> simp only [smul_x, smul_y, smul_z] <;> field_simp
  · have e1 := h3 0 [] p
    have e2 := h3 0 [] (k • p)
    rcases hm : args "mu" with _ | mu <;> rcases hj : args "J3" with _ | J <;>
      rcases hR : args "R_eq" with _ | R <;>
      simp only [j3_acc, Args.get, hm, hj, hR, bind, Except.bind, pure, Except.pure, reduceCtorEq,
        Except.ok.injEq, hn] at e1 e2
    rw [← e1, ← e2]
    ext <;> simp only [smul_x, smul_y, smul_z] <;> field_simp
  · have e1 := h4 0 [] p
    have e2 := h4 0 [] (k • p)
    rcases hm : args "mu" with _ | mu <;> rcases hj : args "J4" with _ | J <;>
      rcases hR : args "R_eq" with _ | R <;>
      simp only [j4_acc, Args.get, hm, hj, hR, bind, Except.bind, pure, Except.pure, reduceCtorEq,
        Except.ok.injEq, hn] at e1 e2
    rw [← e1, ← e2]
    ext <;> simp only [smul_x, smul_y, smul_z] <;> field_simp

/-- C42: linearity in the strength: scaling `mu` scales every acceleration, scaling `J_n` scales the
acceleration of degree `n`. -/
theorem C42_linear (c d : ℝ) (t : ℝ) (x : State ℝ) (mu J R : ℝ) (args args' : Args ℝ)
    (hm : args "mu" = some mu) (hm' : args' "mu" = some (c * mu)) (hR : args "R_eq" = some R)
    (hR' : args' "R_eq" = some R) (a a' : V3 ℝ) :
    (point_mass_grav t x args = .ok a → point_mass_grav t x args' = .ok a' → a' = c • a) ∧
    (args "J2" = some J → args' "J2" = some (d * J) → j2_acc t x args = .ok a →
      j2_acc t x args' = .ok a' → a' = (c * d) • a) ∧
    (args "J3" = some J → args' "J3" = some (d * J) → j3_acc t x args = .ok a →
      j3_acc t x args' = .ok a' → a' = (c * d) • a) ∧
    (args "J4" = some J → args' "J4" = some (d * J) → j4_acc t x args = .ok a →
      j4_acc t x args' = .ok a' → a' = (c * d) • a) := by
  refine ⟨?_, ?_, ?_, ?_⟩
  · intro h h'
    simp only [point_mass_grav, Args.get, hm, hm', bind, Except.bind, pure, Except.pure,
      Except.ok.injEq] at h h'
    rw [← h, ← h']; ext <;> simp only [smul_x, smul_y, smul_z] <;> ring
  · intro hj hj' h h'
    simp only [j2_acc, Args.get, hm, hm', hj, hj', hR, hR', bind, Except.bind, pure, Except.pure,
      Except.ok.injEq] at h h'
    rw [← h, ← h']; ext <;> simp only [smul_x, smul_y, smul_z] <;> ring
  · intro hj hj' h h'
    simp only [j3_acc, Args.get, hm, hm', hj, hj', hR, hR', bind, Except.bind, pure, Except.pure,
      Except.ok.injEq] at h h'
    rw [← h, ← h']; ext <;> simp only [smul_x, smul_y, smul_z] <;> ring
  · intro hj hj' h h'
    simp only [j4_acc, Args.get, hm, hm', hj, hj', hR, hR', bind, Except.bind, pure, Except.pure,
      Except.ok.injEq] at h h'
    rw [← h, ← h']; ext <;> simp only [smul_x, smul_y, smul_z] <;> ring

section divergence
variable {p : V3 ℝ}

theorem dnx (hp : V3.norm p ≠ 0) :
    HasDerivAt (fun s => V3.norm ⟨s, p.y, p.z⟩) (p.x / V3.norm p) p.x := by
  have h : HasDerivV (fun s => (⟨s, p.y, p.z⟩ : V3 ℝ)) ⟨1, 0, 0⟩ p.x :=
    ⟨hasDerivAt_id _, hasDerivAt_const _ _, hasDerivAt_const _ _⟩
  simpa [dot] using h.norm hp
theorem dny (hp : V3.norm p ≠ 0) :
    HasDerivAt (fun s => V3.norm ⟨p.x, s, p.z⟩) (p.y / V3.norm p) p.y := by
  have h : HasDerivV (fun s => (⟨p.x, s, p.z⟩ : V3 ℝ)) ⟨0, 1, 0⟩ p.y :=
    ⟨hasDerivAt_const _ _, hasDerivAt_id _, hasDerivAt_const _ _⟩
  simpa [dot] using h.norm hp
theorem dnz (hp : V3.norm p ≠ 0) :
    HasDerivAt (fun s => V3.norm ⟨p.x, p.y, s⟩) (p.z / V3.norm p) p.z := by
  have h : HasDerivV (fun s => (⟨p.x, p.y, s⟩ : V3 ℝ)) ⟨0, 0, 1⟩ p.z :=
    ⟨hasDerivAt_const _ _, hasDerivAt_const _ _, hasDerivAt_id _⟩
  simpa [dot] using h.norm hp

/-- C42: away from the centre every term of the field is divergence free (Laplace's equation). -/
theorem C42_divergence_free {f0 f2 f3 f4 : V3 ℝ → V3 ℝ} (h0 : IsField point_mass_grav args f0)
    (h2 : IsField j2_acc args f2) (h3 : IsField j3_acc args f3) (h4 : IsField j4_acc args f4)
    (hp : p ≠ ⟨0, 0, 0⟩) :
    DivFreeAt f0 p ∧ DivFreeAt f2 p ∧ DivFreeAt f3 p ∧ DivFreeAt f4 p := by
  have hn : V3.norm p ≠ 0 := ((norm_pos p).2 hp).ne'
  have hsq : V3.norm p ^ 2 = p.x ^ 2 + p.y ^ 2 + p.z ^ 2 := by rw [norm_sq]; simp only [dot]; ring
  have ix := (dnx hn).fun_inv hn
  have iy := (dny hn).fun_inv hn
  have iz := (dnz hn).fun_inv hn
  have idx := hasDerivAt_id' p.x
  have idy := hasDerivAt_id' p.y
  have idz := hasDerivAt_id' p.z
  refine ⟨?_, ?_, ?_, ?_⟩
  · rcases hm : args "mu" with _ | mu
    · have := h0 0 [] p
      simp [point_mass_grav, Args.get, hm, bind, Except.bind] at this
    have hf : ∀ q, f0 q = ⟨-mu * ((V3.norm q)⁻¹ ^ 3 * q.x), -mu * ((V3.norm q)⁻¹ ^ 3 * q.y),
        -mu * ((V3.norm q)⁻¹ ^ 3 * q.z)⟩ := by
      intro q
      have := h0 0 [] q
      simp only [point_mass_grav, Args.get, hm, bind, Except.bind, pure, Except.pure,
        Except.ok.injEq] at this
      rw [← this]; ext <;> simp only [div_eq_mul_inv] <;> ring
    simp only [DivFreeAt, hf]
    refine ⟨_, _, _, ((ix.fun_pow 3).fun_mul idx).const_mul (-mu), ((iy.fun_pow 3).fun_mul idy).const_mul (-mu),
      ((iz.fun_pow 3).fun_mul idz).const_mul (-mu), ?_⟩
    have e : V3.norm ⟨p.x, p.y, p.z⟩ = V3.norm p := rfl
    simp only [e]
    push_cast
    field_simp
    linear_combination (-3 * mu) * hsq
  · rcases hm : args "mu" with _ | mu
    · have := h2 0 [] p
      simp [j2_acc, Args.get, hm, bind, Except.bind] at this
    rcases hj : args "J2" with _ | J
    · have := h2 0 [] p
      simp [j2_acc, Args.get, hm, hj, bind, Except.bind] at this
    rcases hR : args "R_eq" with _ | R
    · have := h2 0 [] p
      simp [j2_acc, Args.get, hm, hj, hR, bind, Except.bind] at this
    set K := -(3 / 2) * mu * J * R ^ 2 with hK
    have hf : ∀ q, f2 q = ⟨K * ((V3.norm q)⁻¹ ^ 5 * q.x - 5 * ((V3.norm q)⁻¹ ^ 7 * (q.x * q.z ^ 2))),
        K * ((V3.norm q)⁻¹ ^ 5 * q.y - 5 * ((V3.norm q)⁻¹ ^ 7 * (q.y * q.z ^ 2))),
        K * (3 * ((V3.norm q)⁻¹ ^ 5 * q.z) - 5 * ((V3.norm q)⁻¹ ^ 7 * q.z ^ 3))⟩ := by
      intro q
      have := h2 0 [] q
      simp only [j2_acc, Args.get, hm, hj, hR, bind, Except.bind, pure, Except.pure,
        Except.ok.injEq] at this
      rw [← this, hK]; ext <;> simp only [div_eq_mul_inv] <;> push_cast <;> ring
    simp only [DivFreeAt, hf]
    refine ⟨_, _, _,
      (((ix.fun_pow 5).fun_mul idx).fun_sub (((ix.fun_pow 7).fun_mul (idx.mul_const (p.z ^ 2))).const_mul 5)).const_mul K,
      (((iy.fun_pow 5).fun_mul idy).fun_sub (((iy.fun_pow 7).fun_mul (idy.mul_const (p.z ^ 2))).const_mul 5)).const_mul K,
      ((((iz.fun_pow 5).fun_mul idz).const_mul 3).fun_sub (((iz.fun_pow 7).fun_mul (idz.fun_pow 3)).const_mul 5)).const_mul K, ?_⟩
    have e : V3.norm ⟨p.x, p.y, p.z⟩ = V3.norm p := rfl
    simp only [e]
    push_cast
    field_simp
    have hx : p.x ^ 2 = V3.norm p ^ 2 - p.y ^ 2 - p.z ^ 2 := by linarith
    ring_nf
    simp only [hx]
    ring
  · rcases hm : args "mu" with _ | mu
    · have := h3 0 [] p
      simp [j3_acc, Args.get, hm, bind, Except.bind] at this
    rcases hj : args "J3" with _ | J
    · have := h3 0 [] p
      simp [j3_acc, Args.get, hm, hj, bind, Except.bind] at this
    rcases hR : args "R_eq" with _ | R
    · have := h3 0 [] p
      simp [j3_acc, Args.get, hm, hj, hR, bind, Except.bind] at this
    set K := -(5 / 2) * mu * J * R ^ 3 with hK
    have hf : ∀ q, q ≠ ⟨0, 0, 0⟩ → f3 q =
        ⟨K * (3 * ((V3.norm q)⁻¹ ^ 7 * (q.x * q.z)) - 7 * ((V3.norm q)⁻¹ ^ 9 * (q.x * q.z ^ 3))),
        K * (3 * ((V3.norm q)⁻¹ ^ 7 * (q.y * q.z)) - 7 * ((V3.norm q)⁻¹ ^ 9 * (q.y * q.z ^ 3))),
        K * (6 * ((V3.norm q)⁻¹ ^ 7 * q.z ^ 2) - 7 * ((V3.norm q)⁻¹ ^ 9 * q.z ^ 4)
          - 3 / 5 * (V3.norm q)⁻¹ ^ 5)⟩ := by
      intro q hq
      have hq' : V3.norm q ≠ 0 := ((norm_pos q).2 hq).ne'
      have := h3 0 [] q
      simp only [j3_acc, Args.get, hm, hj, hR, bind, Except.bind, pure, Except.pure,
        Except.ok.injEq] at this
      rw [← this, hK]; ext <;> push_cast <;> field_simp
    have kx := ((((ix.fun_pow 7).fun_mul (idx.mul_const p.z)).const_mul 3).fun_sub
      (((ix.fun_pow 9).fun_mul (idx.mul_const (p.z ^ 3))).const_mul 7)).const_mul K
    have ky := ((((iy.fun_pow 7).fun_mul (idy.mul_const p.z)).const_mul 3).fun_sub
      (((iy.fun_pow 9).fun_mul (idy.mul_const (p.z ^ 3))).const_mul 7)).const_mul K
    have kz := (((((iz.fun_pow 7).fun_mul (idz.fun_pow 2)).const_mul 6).fun_sub
      (((iz.fun_pow 9).fun_mul (idz.fun_pow 4)).const_mul 7)).fun_sub ((iz.fun_pow 5).const_mul (3 / 5))).const_mul K
    -- near p the point is not the origin
    have nx : ∀ᶠ s in nhds p.x, (⟨s, p.y, p.z⟩ : V3 ℝ) ≠ ⟨0, 0, 0⟩ := by
      filter_upwards [(dnx hn).continuousAt.eventually_ne hn] with s hs
      exact fun h => hs ((norm_eq_zero _).2 h)
    have ny : ∀ᶠ s in nhds p.y, (⟨p.x, s, p.z⟩ : V3 ℝ) ≠ ⟨0, 0, 0⟩ := by
      filter_upwards [(dny hn).continuousAt.eventually_ne hn] with s hs
      exact fun h => hs ((norm_eq_zero _).2 h)
    have nz : ∀ᶠ s in nhds p.z, (⟨p.x, p.y, s⟩ : V3 ℝ) ≠ ⟨0, 0, 0⟩ := by
      filter_upwards [(dnz hn).continuousAt.eventually_ne hn] with s hs
      exact fun h => hs ((norm_eq_zero _).2 h)
    refine ⟨_, _, _, kx.congr_of_eventuallyEq (nx.mono fun s hs => by simp only [hf _ hs]),
      ky.congr_of_eventuallyEq (ny.mono fun s hs => by simp only [hf _ hs]),
      kz.congr_of_eventuallyEq (nz.mono fun s hs => by simp only [hf _ hs]), ?_⟩
    have e : V3.norm ⟨p.x, p.y, p.z⟩ = V3.norm p := rfl
    simp only [e]
    push_cast
    field_simp
    have hx : p.x ^ 2 = V3.norm p ^ 2 - p.y ^ 2 - p.z ^ 2 := by linarith
    ring_nf
    simp only [hx]
    ring
  · rcases hm : args "mu" with _ | mu
    · have := h4 0 [] p
      simp [j4_acc, Args.get, hm, bind, Except.bind] at this
    rcases hj : args "J4" with _ | J
    · have := h4 0 [] p
      simp [j4_acc, Args.get, hm, hj, bind, Except.bind] at this
    rcases hR : args "R_eq" with _ | R
    · have := h4 0 [] p
      simp [j4_acc, Args.get, hm, hj, hR, bind, Except.bind] at this
    set K := 15 / 8 * mu * J * R ^ 4 with hK
    have hf : ∀ q, f4 q = ⟨K * ((V3.norm q)⁻¹ ^ 7 * q.x - 14 * ((V3.norm q)⁻¹ ^ 9 * (q.x * q.z ^ 2))
          + 21 * ((V3.norm q)⁻¹ ^ 11 * (q.x * q.z ^ 4))),
        K * ((V3.norm q)⁻¹ ^ 7 * q.y - 14 * ((V3.norm q)⁻¹ ^ 9 * (q.y * q.z ^ 2))
          + 21 * ((V3.norm q)⁻¹ ^ 11 * (q.y * q.z ^ 4))),
        K * (5 * ((V3.norm q)⁻¹ ^ 7 * q.z) - 70 / 3 * ((V3.norm q)⁻¹ ^ 9 * q.z ^ 3)
          + 21 * ((V3.norm q)⁻¹ ^ 11 * q.z ^ 5))⟩ := by
      intro q
      have := h4 0 [] q
      simp only [j4_acc, Args.get, hm, hj, hR, bind, Except.bind, pure, Except.pure,
        Except.ok.injEq] at this
      rw [← this, hK]; ext <;> simp only [div_eq_mul_inv] <;> push_cast <;> ring
    simp only [DivFreeAt, hf]
    refine ⟨_, _, _,
      ((((ix.fun_pow 7).fun_mul idx).fun_sub (((ix.fun_pow 9).fun_mul (idx.mul_const (p.z ^ 2))).const_mul 14)).fun_add
        (((ix.fun_pow 11).fun_mul (idx.mul_const (p.z ^ 4))).const_mul 21)).const_mul K,
      ((((iy.fun_pow 7).fun_mul idy).fun_sub (((iy.fun_pow 9).fun_mul (idy.mul_const (p.z ^ 2))).const_mul 14)).fun_add
        (((iy.fun_pow 11).fun_mul (idy.mul_const (p.z ^ 4))).const_mul 21)).const_mul K,
      (((((iz.fun_pow 7).fun_mul idz).const_mul 5).fun_sub (((iz.fun_pow 9).fun_mul (idz.fun_pow 3)).const_mul (70 / 3))).fun_add
        (((iz.fun_pow 11).fun_mul (idz.fun_pow 5)).const_mul 21)).const_mul K, ?_⟩
    have e : V3.norm ⟨p.x, p.y, p.z⟩ = V3.norm p := rfl
    simp only [e]
    push_cast
    field_simp
    have hx : p.x ^ 2 = V3.norm p ^ 2 - p.y ^ 2 - p.z ^ 2 := by linarith
    ring_nf
    simp only [hx]
    ring

end divergence

/-- C42: with the keys present, each acceleration is a function of the position alone: time, velocity and
any extra state entries do not matter. -/
theorem C42_position_only (args : Args ℝ) :
    ((args "mu").isSome → ∃ f, IsField point_mass_grav args f) ∧
    ((args "mu").isSome → (args "J2").isSome → (args "R_eq").isSome → ∃ f, IsField j2_acc args f) ∧
    ((args "mu").isSome → (args "J3").isSome → (args "R_eq").isSome → ∃ f, IsField j3_acc args f) ∧
    ((args "mu").isSome → (args "J4").isSome → (args "R_eq").isSome → ∃ f, IsField j4_acc args f) := by
  simp only [Option.isSome_iff_exists]
  refine ⟨?_, ?_, ?_, ?_⟩
  · rintro ⟨mu, hm⟩
    exact ⟨_, fun t rest p => by
      simp only [point_mass_grav, Args.get, hm, bind, Except.bind, pure, Except.pure]; rfl⟩
  · rintro ⟨mu, hm⟩ ⟨J, hj⟩ ⟨R, hR⟩
    exact ⟨_, fun t rest p => by
      simp only [j2_acc, Args.get, hm, hj, hR, bind, Except.bind, pure, Except.pure]; rfl⟩
  · rintro ⟨mu, hm⟩ ⟨J, hj⟩ ⟨R, hR⟩
    exact ⟨_, fun t rest p => by
      simp only [j3_acc, Args.get, hm, hj, hR, bind, Except.bind, pure, Except.pure]; rfl⟩
  · rintro ⟨mu, hm⟩ ⟨J, hj⟩ ⟨R, hR⟩
    exact ⟨_, fun t rest p => by
      simp only [j4_acc, Args.get, hm, hj, hR, bind, Except.bind, pure, Except.pure]; rfl⟩

/-- The hypotheses of the theorems above hold e.g. with every key present (all four fields at once). -/
example : ∃ f0 f2 f3 f4, IsField point_mass_grav (fun _ => some 1) f0 ∧ IsField j2_acc (fun _ => some 1) f2 ∧
    IsField j3_acc (fun _ => some 1) f3 ∧ IsField j4_acc (fun _ => some 1) f4 := by
  obtain ⟨h0, h2, h3, h4⟩ := C42_position_only (fun _ => some (1 : ℝ))
  obtain ⟨f0, h0⟩ := h0 rfl
  obtain ⟨f2, h2⟩ := h2 rfl rfl rfl
  obtain ⟨f3, h3⟩ := h3 rfl rfl rfl
  obtain ⟨f4, h4⟩ := h4 rfl rfl rfl
  exact ⟨f0, f2, f3, f4, h0, h2, h3, h4⟩

end Adx
