import Verif.Model.PathCheck
import Verif.Lemmas.Elements
import Verif.Lemmas.Flow

/-! # C37, C38: short way and passage through periapsis -/

namespace Adx
open V3

/-- Specification: `r` turned by the angle `θ` about the axis `h` (for `r ⟂ h`), counterclockwise seen from the
tip of `h`, i.e. in the direction of motion when `h` is the angular momentum. -/
noncomputable def turned (h r : V3 ℝ) (θ : ℝ) : V3 ℝ :=
  Real.cos θ • r + (Real.sin θ / V3.norm h) • cross h r

section
variable {h r : V3 ℝ} (hh : h ≠ ⟨0, 0, 0⟩) (hrh : dot r h = 0)
include hrh

/-- Turning keeps the length and the plane. -/
theorem dot_turned (hh : h ≠ ⟨0, 0, 0⟩) (θ φ : ℝ) :
    dot (turned h r θ) (turned h r φ) = dot r r * Real.cos (θ - φ) ∧ dot (turned h r θ) h = 0 := by
  have hn := ((norm_pos h).2 hh).ne'
  have h1 : dot r (cross h r) = 0 := by simp only [dot, cross]; ring
  have h2 : dot (cross h r) (cross h r) = V3.norm h ^ 2 * dot r r := by
    rw [dot_cross_self, norm_sq, dot_comm h r, hrh]; ring
  have h3 : dot (cross h r) h = 0 := by simp only [dot, cross]; ring
  constructor
  · rw [turned, turned, dot_comb, h1, h2, Real.cos_sub]; field_simp; ring
  · have : ∀ a b : ℝ, dot (a • r + b • cross h r) h = a * dot r h + b * dot (cross h r) h := by
      intro a b; simp only [dot, add_x, add_y, add_z, smul_x, smul_y, smul_z]; ring
    rw [turned, this, hrh, h3]; ring

theorem cross_turned (φ θ : ℝ) :
    cross (turned h r φ) (turned h r θ) = (Real.sin (θ - φ) * dot r r / V3.norm h) • h := by
  have h1 : cross r (cross h r) = dot r r • h := by
    have e : cross r (cross h r) = dot r r • h - dot r h • r := by
      ext <;> simp only [dot, cross, sub_x, sub_y, sub_z, smul_x, smul_y, smul_z] <;> ring
    rw [e, hrh]; ext <;> simp
  rw [turned, turned, cross_comb, h1, Real.sin_sub]
  ext <;> simp only [smul_x, smul_y, smul_z] <;> ring

theorem cross_turned_left (θ : ℝ) :
    cross r (turned h r θ) = (Real.sin θ * dot r r / V3.norm h) • h := by
  have := cross_turned hrh 0 θ
  rw [sub_zero] at this
  rw [← this]
  congr 1
  ext <;> simp [turned]

end

theorem dot_smul_smul (a b : ℝ) (x y : V3 ℝ) : dot (a • x) (b • y) = a * b * dot x y := by
  simp only [dot, smul_x, smul_y, smul_z]; ring

theorem cross_smul_smul (a b : ℝ) (x y : V3 ℝ) : cross (a • x) (b • y) = (a * b) • cross x y := by
  ext <;> simp only [cross, smul_x, smul_y, smul_z] <;> ring

theorem cross_smul_right (b : ℝ) (x y : V3 ℝ) : cross x (b • y) = b • cross x y := by
  ext <;> simp only [cross, smul_x, smul_y, smul_z] <;> ring

/-- Every vector of the plane is a multiple of `r` turned by an angle in `[0, 2π)`: the hypotheses of C37 and C38
can always be met. -/
theorem exists_turned {h r x : V3 ℝ} (hh : h ≠ ⟨0, 0, 0⟩) (hr : r ≠ ⟨0, 0, 0⟩) (hrh : dot r h = 0)
    (hx : dot x h = 0) :
    ∃ θ, 0 ≤ θ ∧ θ < 2 * Real.pi ∧ x = (V3.norm x / V3.norm r) • turned h r θ := by
  have hn := (norm_pos h).2 hh
  have hrn := (norm_pos r).2 hr
  set c := cross h r with hc
  have hcc : dot c c = V3.norm h ^ 2 * V3.norm r ^ 2 := by
    rw [hc, dot_cross_self, norm_sq, norm_sq, dot_comm h r, hrh]; ring
  have hr2 := norm_sq r
  have hh2 := norm_sq h
  -- decomposition of x on r, c, h
  have hdec : x = (dot x r / V3.norm r ^ 2) • r + (dot x c / (V3.norm h ^ 2 * V3.norm r ^ 2)) • c := by
    -- the difference is orthogonal to r, c and h
    have hD : (V3.norm h ^ 2 * V3.norm r ^ 2) • x = (V3.norm h ^ 2 * dot x r) • r + dot x c • c := by
      rw [hr2, hh2, hc]
      ext <;> simp only [dot, cross, smul_x, smul_y, smul_z, add_x, add_y, add_z] at hrh hx ⊢
      · linear_combination (h.x * (r.x * r.x + r.y * r.y + r.z * r.z) - r.x * (r.x * h.x + r.y * h.y + r.z * h.z)) * hx
          + (x.x * (r.x * h.x + r.y * h.y + r.z * h.z) - h.x * (x.x * r.x + x.y * r.y + x.z * r.z)) * hrh
      · linear_combination (h.y * (r.x * r.x + r.y * r.y + r.z * r.z) - r.y * (r.x * h.x + r.y * h.y + r.z * h.z)) * hx
          + (x.y * (r.x * h.x + r.y * h.y + r.z * h.z) - h.y * (x.x * r.x + x.y * r.y + x.z * r.z)) * hrh
      · linear_combination (h.z * (r.x * r.x + r.y * r.y + r.z * r.z) - r.z * (r.x * h.x + r.y * h.y + r.z * h.z)) * hx
          + (x.z * (r.x * h.x + r.y * h.y + r.z * h.z) - h.z * (x.x * r.x + x.y * r.y + x.z * r.z)) * hrh
    have hx' := congrArg V3.x hD
    have hy' := congrArg V3.y hD
    have hz' := congrArg V3.z hD
    simp only [smul_x, smul_y, smul_z, add_x, add_y, add_z] at hx' hy' hz'
    ext <;> simp only [smul_x, smul_y, smul_z, add_x, add_y, add_z] <;> field_simp <;> linarith
  obtain ⟨θ, h0, h1, ha, hb⟩ := exists_angle (dot x r / V3.norm r ^ 2) (dot x c / (V3.norm h * V3.norm r ^ 2))
  have hnorm : Real.sqrt ((dot x r / V3.norm r ^ 2) ^ 2 + (dot x c / (V3.norm h * V3.norm r ^ 2)) ^ 2)
      = V3.norm x / V3.norm r := by
    have hxx : dot x x = (dot x r / V3.norm r ^ 2) ^ 2 * V3.norm r ^ 2
        + (dot x c / (V3.norm h ^ 2 * V3.norm r ^ 2)) ^ 2 * (V3.norm h ^ 2 * V3.norm r ^ 2) := by
      conv_lhs => rw [hdec]
      rw [dot_comb, hcc, ← hr2, show dot r c = 0 by rw [hc]; simp only [dot, cross]; ring]; ring
    rw [Real.sqrt_eq_iff_mul_self_eq (by positivity) (div_nonneg (norm_nonneg x) hrn.le), ← pow_two,
      div_pow (V3.norm x), norm_sq x, hxx]
    field_simp
  rw [hnorm] at ha hb
  refine ⟨θ, h0, h1, ?_⟩
  rw [turned]
  have hb' : dot x c / (V3.norm h ^ 2 * V3.norm r ^ 2) = V3.norm x / V3.norm r * (Real.sin θ / V3.norm h) := by
    have : dot x c / (V3.norm h ^ 2 * V3.norm r ^ 2) = dot x c / (V3.norm h * V3.norm r ^ 2) / V3.norm h := by
      field_simp
    rw [this, hb]; ring
  refine hdec.trans ?_
  rw [ha, hb', hc]
  ext <;> simp only [add_x, add_y, add_z, smul_x, smul_y, smul_z] <;> ring

/-- In `[0, 2π)` the sine is positive exactly on `(0, π)`. -/
theorem sin_pos_iff {θ : ℝ} (h0 : 0 ≤ θ) (h1 : θ < 2 * Real.pi) : 0 < Real.sin θ ↔ 0 < θ ∧ θ < Real.pi := by
  constructor
  · intro h
    refine ⟨lt_of_le_of_ne h0 (by rintro rfl; simp at h), ?_⟩
    by_contra hc
    have : 0 ≤ Real.sin (θ - Real.pi) := Real.sin_nonneg_of_nonneg_of_le_pi (by linarith) (by linarith)
    rw [Real.sin_sub_pi] at this
    linarith
  · rintro ⟨a, b⟩; exact Real.sin_pos_of_pos_of_lt_pi a b

/-- In `[0, 2π)` the sine is negative exactly on `(π, 2π)`. -/
theorem sin_neg_iff {θ : ℝ} (h0 : 0 ≤ θ) (h1 : θ < 2 * Real.pi) : Real.sin θ < 0 ↔ Real.pi < θ := by
  constructor
  · intro h
    by_contra hc
    have := Real.sin_nonneg_of_nonneg_of_le_pi h0 (not_lt.1 hc)
    linarith
  · intro h
    have : 0 < Real.sin (θ - Real.pi) := Real.sin_pos_of_pos_of_lt_pi (by linarith) (by linarith)
    rw [Real.sin_sub_pi] at this
    linarith

section
variable {r1 v1 r2 : V3 ℝ} {k θ : ℝ} (hh : angular_momentum r1 v1 ≠ ⟨0, 0, 0⟩) (hk : 0 < k)
  (hr2 : r2 = k • turned (angular_momentum r1 v1) r1 θ)
include hh hk hr2

theorem is_short_way_iff_sin : is_short_way r1 v1 r2 = true ↔ 0 < Real.sin θ := by
  have hr : r1 ≠ ⟨0, 0, 0⟩ := by rintro rfl; apply hh; ext <;> simp [angular_momentum, cross]
  have hrr := (dot_self_pos r1).2 hr
  have hH := (dot_self_pos (cross r1 v1)).2 hh
  have hn := (norm_pos (cross r1 v1)).2 hh
  change r2 = k • turned (cross r1 v1) r1 θ at hr2
  simp only [is_short_way, lt_real, Nat.cast_zero, decide_eq_true_eq]
  rw [hr2, cross_smul_right, cross_turned_left (dot_cross_left r1 v1),
    show ∀ (a b : ℝ) (x : V3 ℝ), dot x (a • b • x) = a * b * dot x x by
      intro a b x; simp only [dot, smul_x, smul_y, smul_z]; ring,
    show k * (Real.sin θ * dot r1 r1 / V3.norm (cross r1 v1)) * dot (cross r1 v1) (cross r1 v1)
      = Real.sin θ * (k * dot r1 r1 * dot (cross r1 v1) (cross r1 v1) / V3.norm (cross r1 v1)) by ring]
  exact mul_pos_iff_of_pos_right (by positivity)

/-- C37: with `r2` at the in-plane angle `θ ∈ [0, 2π)` ahead of `r1` in the direction of motion,
`is_short_way` is true exactly when `0 < θ < π`. -/
theorem C37_is_short_way (h0 : 0 ≤ θ) (h1 : θ < 2 * Real.pi) :
    is_short_way r1 v1 r2 = true ↔ 0 < θ ∧ θ < Real.pi := by
  rw [is_short_way_iff_sin hh hk hr2, sin_pos_iff h0 h1]

variable {mu ke φ : ℝ}

/-- The value of `pass_perigee` in terms of signs of sines. -/
theorem pass_perigee_sin
    (he : eccentricity_vector r1 v1 mu = ke • turned (angular_momentum r1 v1) r1 φ) :
    pass_perigee r1 v1 r2 mu = true ↔
      ((0 < ke * (Real.sin θ * Real.sin φ) ∧ 0 < ke * (Real.sin θ * Real.sin (θ - φ))) ↔ 0 < Real.sin θ) := by
  have hr : r1 ≠ ⟨0, 0, 0⟩ := by rintro rfl; apply hh; ext <;> simp [angular_momentum, cross]
  have hrr := (dot_self_pos r1).2 hr
  have hH := (dot_self_pos (cross r1 v1)).2 hh
  have hn := (norm_pos (cross r1 v1)).2 hh
  have hs := is_short_way_iff_sin hh hk hr2
  change r2 = k • turned (cross r1 v1) r1 θ at hr2
  change eccentricity_vector r1 v1 mu = ke • turned (cross r1 v1) r1 φ at he
  have hp := dot_cross_left r1 v1
  have e1 : dot (cross r1 r2) (cross r1 (eccentricity_vector r1 v1 mu))
      = ke * (Real.sin θ * Real.sin φ)
        * (k * dot r1 r1 ^ 2 * dot (cross r1 v1) (cross r1 v1) / V3.norm (cross r1 v1) ^ 2) := by
    rw [hr2, he, cross_smul_right, cross_smul_right, cross_turned_left hp, cross_turned_left hp, dot_smul_smul,
      dot_smul_smul]
    ring
  have e2 : dot (cross r1 r2) (cross (eccentricity_vector r1 v1 mu) r2)
      = ke * (Real.sin θ * Real.sin (θ - φ))
        * (k ^ 2 * dot r1 r1 ^ 2 * dot (cross r1 v1) (cross r1 v1) / V3.norm (cross r1 v1) ^ 2) := by
    rw [hr2, he, cross_smul_right, cross_smul_smul, cross_turned_left hp, cross_turned hp, dot_smul_smul,
      dot_smul_smul]
    ring
  have p1 : 0 < k * dot r1 r1 ^ 2 * dot (cross r1 v1) (cross r1 v1) / V3.norm (cross r1 v1) ^ 2 := by positivity
  have p2 : 0 < k ^ 2 * dot r1 r1 ^ 2 * dot (cross r1 v1) (cross r1 v1) / V3.norm (cross r1 v1) ^ 2 := by
    positivity
  simp only [pass_perigee, lt_real, Nat.cast_zero, e1, e2, mul_pos_iff_of_pos_right p1,
    mul_pos_iff_of_pos_right p2]
  rw [beq_iff_eq, Bool.eq_iff_iff, hs]
  simp

/-- C38: complete description of `pass_perigee` for a non-circular orbit, with the transfer angle
`θ ∈ (0, 2π)` and periapsis at angle `φ ∈ [0, 2π)` ahead of the start: on the short way it is true iff
`0 < φ < θ`, on the long way iff `φ ≤ θ`, and for a transfer angle of exactly `π` it is always true. -/
theorem C38_complete (hke : 0 < ke)
    (he : eccentricity_vector r1 v1 mu = ke • turned (angular_momentum r1 v1) r1 φ)
    (hθ0 : 0 < θ) (hθ1 : θ < 2 * Real.pi) (hφ0 : 0 ≤ φ) (hφ1 : φ < 2 * Real.pi) :
    pass_perigee r1 v1 r2 mu = true ↔
      (θ < Real.pi ∧ 0 < φ ∧ φ < θ) ∨ θ = Real.pi ∨ (Real.pi < θ ∧ φ ≤ θ) := by
  rw [pass_perigee_sin hh hk hr2 he]
  simp only [mul_pos_iff_of_pos_left hke]
  have hpi := Real.pi_pos
  rcases lt_trichotomy θ Real.pi with hlt | heq | hgt
  · have hs : 0 < Real.sin θ := (sin_pos_iff hθ0.le hθ1).2 ⟨hθ0, hlt⟩
    simp only [mul_pos_iff_of_pos_left hs, hs, iff_true, hlt, true_and, hlt.ne, not_lt.2 hlt.le,
      false_and, or_false]
    rw [sin_pos_iff hφ0 hφ1]
    constructor
    · rintro ⟨⟨a, b⟩, c⟩
      refine ⟨a, ?_⟩
      by_contra hc
      have : 0 ≤ Real.sin (φ - θ) := Real.sin_nonneg_of_nonneg_of_le_pi (by linarith) (by linarith)
      rw [← neg_sub, Real.sin_neg] at this
      linarith
    · rintro ⟨a, b⟩
      exact ⟨⟨a, by linarith⟩, Real.sin_pos_of_pos_of_lt_pi (by linarith) (by linarith)⟩
  · subst heq; simp
  · have hs : Real.sin θ < 0 := (sin_neg_iff hθ0.le hθ1).2 hgt
    have hneg : ∀ x : ℝ, 0 < Real.sin θ * x ↔ x < 0 := fun x => by
      rw [mul_pos_iff]
      constructor
      · rintro (⟨a, -⟩ | ⟨-, b⟩)
        · linarith
        · exact b
      · exact fun b => Or.inr ⟨hs, b⟩
    simp only [hneg, not_lt.2 hs.le, iff_false, not_lt.2 hgt.le, false_and, hgt.ne', false_or, hgt, true_and]
    rw [sin_neg_iff hφ0 hφ1]
    constructor
    · intro h
      by_contra hc
      apply h
      push Not at hc
      refine ⟨by linarith, ?_⟩
      have : 0 < Real.sin (φ - θ) := Real.sin_pos_of_pos_of_lt_pi (by linarith) (by linarith)
      rw [← neg_sub, Real.sin_neg]
      linarith
    · rintro h ⟨a, b⟩
      have : 0 ≤ Real.sin (θ - φ) := Real.sin_nonneg_of_nonneg_of_le_pi (by linarith) (by linarith)
      linarith

/-- C38, the part that is true. Full claim (false at `θ = π`, see `C38_refuted`): the same without `hθ`. -/
theorem C38_pass_perigee_partial (hke : 0 < ke)
    (he : eccentricity_vector r1 v1 mu = ke • turned (angular_momentum r1 v1) r1 φ)
    (hθ0 : 0 < θ) (hθ1 : θ < 2 * Real.pi) (hφ0 : 0 < φ) (hφ1 : φ < 2 * Real.pi) (hne : φ ≠ θ)
    (hθ : θ ≠ Real.pi) :
    pass_perigee r1 v1 r2 mu = true ↔ φ < θ := by
  rw [C38_complete hh hk hr2 hke he hθ0 hθ1 hφ0.le hφ1]
  constructor
  · rintro (⟨-, -, h⟩ | h | ⟨-, h⟩)
    · exact h
    · exact absurd h hθ
    · exact lt_of_le_of_ne h hne
  · intro h
    rcases lt_or_gt_of_ne hθ with hlt | hgt
    · exact Or.inl ⟨hlt, hφ0, h⟩
    · exact Or.inr (Or.inr ⟨hgt, h.le⟩)

/-- C38: on a circular orbit the answer is just "not the short way". -/
theorem C38_circular (he : eccentricity_vector r1 v1 mu = ⟨0, 0, 0⟩) :
    pass_perigee r1 v1 r2 mu = true ↔ ¬ 0 < Real.sin θ := by
  rw [pass_perigee_sin (φ := 0) (ke := 0) hh hk hr2 (by rw [he]; ext <;> simp)]
  simp

end

/-- C38: the full claim is false: starting at apoapsis-side, half a revolution ahead (`θ = π`), periapsis at
`3π/2` is not on the travelled arc, yet `pass_perigee` returns true. -/
theorem C38_refuted :
    ¬ ∀ (r1 v1 r2 : V3 ℝ) (mu k ke θ φ : ℝ), 0 < mu → angular_momentum r1 v1 ≠ ⟨0, 0, 0⟩ → 0 < k → 0 < ke →
      r2 = k • turned (angular_momentum r1 v1) r1 θ →
      eccentricity_vector r1 v1 mu = ke • turned (angular_momentum r1 v1) r1 φ →
      0 < θ → θ < 2 * Real.pi → 0 < φ → φ < 2 * Real.pi → φ ≠ θ →
      (pass_perigee r1 v1 r2 mu = true ↔ φ < θ) := by
  intro H
  have hpi := Real.pi_pos
  -- r1 = (1,0,0), v1 = (1,1,0): h = (0,0,1), e = (0,-1,0), periapsis at 3π/2
  have hh : angular_momentum (⟨1, 0, 0⟩ : V3 ℝ) ⟨1, 1, 0⟩ = ⟨0, 0, 1⟩ := by ext <;> simp [angular_momentum, cross]
  have hn1 : V3.norm (⟨0, 0, 1⟩ : V3 ℝ) = 1 := by simp [V3.norm, dot]
  have hn2 : V3.norm (⟨1, 0, 0⟩ : V3 ℝ) = 1 := by simp [V3.norm, dot]
  have hc : Real.cos (3 * Real.pi / 2) = 0 := by
    rw [show 3 * Real.pi / 2 = Real.pi / 2 + Real.pi by ring, Real.cos_add_pi]; simp
  have hs : Real.sin (3 * Real.pi / 2) = -1 := by
    rw [show 3 * Real.pi / 2 = Real.pi / 2 + Real.pi by ring, Real.sin_add_pi]; simp
  have hne : angular_momentum (⟨1, 0, 0⟩ : V3 ℝ) ⟨1, 1, 0⟩ ≠ ⟨0, 0, 0⟩ := by rw [hh]; simp
  have he : eccentricity_vector (⟨1, 0, 0⟩ : V3 ℝ) ⟨1, 1, 0⟩ 1
      = (1 : ℝ) • turned (angular_momentum (⟨1, 0, 0⟩ : V3 ℝ) ⟨1, 1, 0⟩) ⟨1, 0, 0⟩ (3 * Real.pi / 2) := by
    rw [ecc_eq, hn2, turned, hh, hn1, hc, hs]
    ext <;> simp [dot, cross]
  have h1 := H ⟨1, 0, 0⟩ ⟨1, 1, 0⟩ _ 1 1 1 Real.pi (3 * Real.pi / 2) one_pos hne one_pos one_pos rfl he hpi
    (by linarith) (by linarith) (by linarith) (by linarith)
  have h2 := C38_complete hne one_pos rfl one_pos he hpi (by linarith) (by linarith) (by linarith)
  have := h1.1 (h2.2 (Or.inr (Or.inl rfl)))
  linarith

/-- A case meeting the hypotheses of C37: a quarter turn is the short way. -/
example : is_short_way (⟨1, 0, 0⟩ : V3 ℝ) ⟨0, 1, 0⟩ ⟨0, 2, 0⟩ = true := by
  simp [is_short_way, dot, cross]

end Adx
