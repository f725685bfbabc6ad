import Verif.Props.C90

/-! # C90, continued: the effect of J3 and J4 over one revolution

As for J2: the rates of C88 integrated over one period, in the frame of the node. With `k = e cos ω` and `l = e sin ω` the results are polynomials in
`k`, `l`, `sin i`. -/

namespace Adx
open V3 Spec

theorem turn_list (L : List (ℕ × ℕ × ℝ)) :
    ∫ θ in (0 : ℝ)..2 * Real.pi, (L.map fun x => x.2.2 * (Real.cos θ ^ x.1 * Real.sin θ ^ x.2.1)).sum
      = (L.map fun x => x.2.2 * trigMoment x.1 x.2.1).sum ∧
    Continuous fun θ => (L.map fun x => x.2.2 * (Real.cos θ ^ x.1 * Real.sin θ ^ x.2.1)).sum := by
  induction L with
  | nil => exact ⟨by simp, by simpa using continuous_const⟩
  | cons x L ih =>
    simp only [List.map_cons, List.sum_cons]
    refine ⟨?_, by have := ih.2; fun_prop⟩
    rw [intervalIntegral.integral_add (Continuous.intervalIntegrable (by fun_prop) _ _) (ih.2.intervalIntegrable _ _),
      intervalIntegral.integral_const_mul, ih.1]
    rfl

theorem turn_of_list {g : ℝ → ℝ} {m : ℝ} (L : List (ℕ × ℕ × ℝ))
    (hg : ∀ θ, g θ = (L.map fun x => x.2.2 * (Real.cos θ ^ x.1 * Real.sin θ ^ x.2.1)).sum)
    (hm : (L.map fun x => x.2.2 * trigMoment x.1 x.2.1).sum = m) : ∫ θ in (0 : ℝ)..2 * Real.pi, g θ = m := by
  rw [← hm, ← (turn_list L).1]; exact intervalIntegral.integral_congr fun θ _ => hg θ

theorem turn3_t1 (k l σ : ℝ) : ∫ θ in (0 : ℝ)..2 * Real.pi, ((-(5 / 2) * (3 * (σ * Real.sin θ) ^ 2 - 3 / 5)) * (1 + k * Real.cos θ + l * Real.sin θ) ^ 2 * Real.cos θ)
    = Real.pi * ((-15/4) * k * σ ^ 2 + (3) * k) := by
  refine turn_of_list [(1, 0, (3/2)),
    (1, 1, (3) * l),
    (1, 2, (-15/2) * σ ^ 2 + (3/2) * l ^ 2),
    (1, 3, (-15) * l * σ ^ 2),
    (1, 4, (-15/2) * l ^ 2 * σ ^ 2),
    (2, 0, (3) * k),
    (2, 1, (3) * k * l),
    (2, 2, (-15) * k * σ ^ 2),
    (2, 3, (-15) * k * l * σ ^ 2),
    (3, 0, (3/2) * k ^ 2),
    (3, 2, (-15/2) * k ^ 2 * σ ^ 2)] (fun θ => ?_) ?_
  · simp only [List.map_cons, List.map_nil, List.sum_cons, List.sum_nil]
    ring
  · simp only [List.map_cons, List.map_nil, List.sum_cons, List.sum_nil, trigMoment_cos, trigMoment_sin, trigMoment_one_left,
      trigMoment_one_right, trigMoment_zero]
    push_cast
    ring

theorem turn3_t2 (k l σ : ℝ) : ∫ θ in (0 : ℝ)..2 * Real.pi, ((-(5 / 2) * (3 * (σ * Real.sin θ) ^ 2 - 3 / 5)) * (1 + k * Real.cos θ + l * Real.sin θ) ^ 2 * Real.sin θ)
    = Real.pi * ((-45/4) * l * σ ^ 2 + (3) * l) := by
  refine turn_of_list [(0, 1, (3/2)),
    (0, 2, (3) * l),
    (0, 3, (-15/2) * σ ^ 2 + (3/2) * l ^ 2),
    (0, 4, (-15) * l * σ ^ 2),
    (0, 5, (-15/2) * l ^ 2 * σ ^ 2),
    (1, 1, (3) * k),
    (1, 2, (3) * k * l),
    (1, 3, (-15) * k * σ ^ 2),
    (1, 4, (-15) * k * l * σ ^ 2),
    (2, 1, (3/2) * k ^ 2),
    (2, 3, (-15/2) * k ^ 2 * σ ^ 2)] (fun θ => ?_) ?_
  · simp only [List.map_cons, List.map_nil, List.sum_cons, List.sum_nil]
    ring
  · simp only [List.map_cons, List.map_nil, List.sum_cons, List.sum_nil, trigMoment_cos, trigMoment_sin, trigMoment_one_left,
      trigMoment_one_right, trigMoment_zero]
    push_cast
    ring

theorem turn3_gN (k l σ : ℝ) : ∫ θ in (0 : ℝ)..2 * Real.pi, ((-(5 / 2) * (3 * (σ * Real.sin θ) - 7 * (σ * Real.sin θ) ^ 3)) * (1 + k * Real.cos θ + l * Real.sin θ) ^ 3 * Real.sin θ + (-(5 / 2) * (3 * (σ * Real.sin θ) ^ 2 - 3 / 5)) * (1 + k * Real.cos θ + l * Real.sin θ) ^ 3 * σ + (-(5 / 2) * (3 * (σ * Real.sin θ) ^ 2 - 3 / 5)) * (1 + k * Real.cos θ + l * Real.sin θ) ^ 2 * (Real.cos θ + k) * σ * Real.cos θ)
    = Real.pi * ((3) * k ^ 2 * σ + (-15/4) * k ^ 2 * σ ^ 3 + (15/4) * σ ^ 3 + (-12) * l ^ 2 * σ + (-3) * σ + (15) * l ^ 2 * σ ^ 3) := by
  refine turn_of_list [(0, 0, (3/2) * σ),
    (0, 1, (9/2) * l * σ),
    (0, 2, (-15/2) * σ + (-15/2) * σ ^ 3 + (9/2) * l ^ 2 * σ),
    (0, 3, (-45/2) * l * σ + (-45/2) * l * σ ^ 3 + (3/2) * l ^ 3 * σ),
    (0, 4, (-45/2) * l ^ 2 * σ + (35/2) * σ ^ 3 + (-45/2) * l ^ 2 * σ ^ 3),
    (0, 5, (-15/2) * l ^ 3 * σ + (105/2) * l * σ ^ 3 + (-15/2) * l ^ 3 * σ ^ 3),
    (0, 6, (105/2) * l ^ 2 * σ ^ 3),
    (0, 7, (35/2) * l ^ 3 * σ ^ 3),
    (1, 0, (6) * k * σ),
    (1, 1, (12) * k * l * σ),
    (1, 2, (-45/2) * k * σ + (-30) * k * σ ^ 3 + (6) * k * l ^ 2 * σ),
    (1, 3, (-45) * k * l * σ + (-60) * k * l * σ ^ 3),
    (1, 4, (-45/2) * k * l ^ 2 * σ + (105/2) * k * σ ^ 3 + (-30) * k * l ^ 2 * σ ^ 3),
    (1, 5, (105) * k * l * σ ^ 3),
    (1, 6, (105/2) * k * l ^ 2 * σ ^ 3),
    (2, 0, (15/2) * k ^ 2 * σ + (3/2) * σ),
    (2, 1, (15/2) * k ^ 2 * l * σ + (3) * l * σ),
    (2, 2, (-45/2) * k ^ 2 * σ + (-75/2) * k ^ 2 * σ ^ 3 + (-15/2) * σ ^ 3 + (3/2) * l ^ 2 * σ),
    (2, 3, (-45/2) * k ^ 2 * l * σ + (-75/2) * k ^ 2 * l * σ ^ 3 + (-15) * l * σ ^ 3),
    (2, 4, (105/2) * k ^ 2 * σ ^ 3 + (-15/2) * l ^ 2 * σ ^ 3),
    (2, 5, (105/2) * k ^ 2 * l * σ ^ 3),
    (3, 0, (3) * k ^ 3 * σ + (3) * k * σ),
    (3, 1, (3) * k * l * σ),
    (3, 2, (-15/2) * k ^ 3 * σ + (-15) * k ^ 3 * σ ^ 3 + (-15) * k * σ ^ 3),
    (3, 3, (-15) * k * l * σ ^ 3),
    (3, 4, (35/2) * k ^ 3 * σ ^ 3),
    (4, 0, (3/2) * k ^ 2 * σ),
    (4, 2, (-15/2) * k ^ 2 * σ ^ 3)] (fun θ => ?_) ?_
  · simp only [List.map_cons, List.map_nil, List.sum_cons, List.sum_nil]
    ring
  · simp only [List.map_cons, List.map_nil, List.sum_cons, List.sum_nil, trigMoment_cos, trigMoment_sin, trigMoment_one_left,
      trigMoment_one_right, trigMoment_zero]
    push_cast
    ring

theorem turn3_gM (k l σ : ℝ) : ∫ θ in (0 : ℝ)..2 * Real.pi, (-((-(5 / 2) * (3 * (σ * Real.sin θ) - 7 * (σ * Real.sin θ) ^ 3)) * (1 + k * Real.cos θ + l * Real.sin θ) ^ 3 * Real.cos θ) + (-(5 / 2) * (3 * (σ * Real.sin θ) ^ 2 - 3 / 5)) * (1 + k * Real.cos θ + l * Real.sin θ) ^ 2 * (Real.cos θ + k) * σ * Real.sin θ - (-(5 / 2) * (3 * (σ * Real.sin θ) ^ 2 - 3 / 5)) * (1 + k * Real.cos θ + l * Real.sin θ) ^ 2 * (k * Real.sin θ - l * Real.cos θ) * σ)
    = Real.pi * ((15) * k * l * σ + (-75/4) * k * l * σ ^ 3) := by
  refine turn_of_list [(1, 0, (3/2) * l * σ),
    (1, 1, (9) * σ + (3) * l ^ 2 * σ),
    (1, 2, (51/2) * l * σ + (-15/2) * l * σ ^ 3 + (3/2) * l ^ 3 * σ),
    (1, 3, (24) * l ^ 2 * σ + (-25) * σ ^ 3 + (-15) * l ^ 2 * σ ^ 3),
    (1, 4, (15/2) * l ^ 3 * σ + (-135/2) * l * σ ^ 3 + (-15/2) * l ^ 3 * σ ^ 3),
    (1, 5, (-60) * l ^ 2 * σ ^ 3),
    (1, 6, (-35/2) * l ^ 3 * σ ^ 3),
    (2, 0, (3) * k * l * σ),
    (2, 1, (51/2) * k * σ + (3) * k * l ^ 2 * σ),
    (2, 2, (48) * k * l * σ + (-15) * k * l * σ ^ 3),
    (2, 3, (45/2) * k * l ^ 2 * σ + (-135/2) * k * σ ^ 3 + (-15) * k * l ^ 2 * σ ^ 3),
    (2, 4, (-120) * k * l * σ ^ 3),
    (2, 5, (-105/2) * k * l ^ 2 * σ ^ 3),
    (3, 0, (3/2) * k ^ 2 * l * σ),
    (3, 1, (24) * k ^ 2 * σ),
    (3, 2, (45/2) * k ^ 2 * l * σ + (-15/2) * k ^ 2 * l * σ ^ 3),
    (3, 3, (-60) * k ^ 2 * σ ^ 3),
    (3, 4, (-105/2) * k ^ 2 * l * σ ^ 3),
    (4, 1, (15/2) * k ^ 3 * σ),
    (4, 3, (-35/2) * k ^ 3 * σ ^ 3)] (fun θ => ?_) ?_
  · simp only [List.map_cons, List.map_nil, List.sum_cons, List.sum_nil]
    ring
  · simp only [List.map_cons, List.map_nil, List.sum_cons, List.sum_nil, trigMoment_cos, trigMoment_sin, trigMoment_one_left,
      trigMoment_one_right, trigMoment_zero]
    push_cast
    ring

theorem turn3_gP (k l σ : ℝ) : ∫ θ in (0 : ℝ)..2 * Real.pi, (-((-(5 / 2) * (3 * (σ * Real.sin θ) ^ 2 - 3 / 5)) * (1 + k * Real.cos θ + l * Real.sin θ) ^ 2 * (k * Real.sin θ - l * Real.cos θ)))
    = Real.pi * ((15/2) * k * l * σ ^ 2) := by
  refine turn_of_list [(0, 1, (-3/2) * k),
    (0, 2, (-3) * k * l),
    (0, 3, (15/2) * k * σ ^ 2 + (-3/2) * k * l ^ 2),
    (0, 4, (15) * k * l * σ ^ 2),
    (0, 5, (15/2) * k * l ^ 2 * σ ^ 2),
    (1, 0, (3/2) * l),
    (1, 1, (-3) * k ^ 2 + (3) * l ^ 2),
    (1, 2, (-15/2) * l * σ ^ 2 + (-3) * k ^ 2 * l + (3/2) * l ^ 3),
    (1, 3, (15) * k ^ 2 * σ ^ 2 + (-15) * l ^ 2 * σ ^ 2),
    (1, 4, (15) * k ^ 2 * l * σ ^ 2 + (-15/2) * l ^ 3 * σ ^ 2),
    (2, 0, (3) * k * l),
    (2, 1, (-3/2) * k ^ 3 + (3) * k * l ^ 2),
    (2, 2, (-15) * k * l * σ ^ 2),
    (2, 3, (15/2) * k ^ 3 * σ ^ 2 + (-15) * k * l ^ 2 * σ ^ 2),
    (3, 0, (3/2) * k ^ 2 * l),
    (3, 2, (-15/2) * k ^ 2 * l * σ ^ 2)] (fun θ => ?_) ?_
  · simp only [List.map_cons, List.map_nil, List.sum_cons, List.sum_nil]
    ring
  · simp only [List.map_cons, List.map_nil, List.sum_cons, List.sum_nil, trigMoment_cos, trigMoment_sin, trigMoment_one_left,
      trigMoment_one_right, trigMoment_zero]
    push_cast
    ring

theorem turn4_t1 (k l σ : ℝ) : ∫ θ in (0 : ℝ)..2 * Real.pi, ((15 / 8 * ((σ * Real.sin θ) * (4 - 28 / 3 * (σ * Real.sin θ) ^ 2))) * (1 + k * Real.cos θ + l * Real.sin θ) ^ 3 * Real.cos θ)
    = Real.pi * ((45/4) * k * l * σ + (-105/8) * k * l * σ ^ 3) := by
  refine turn_of_list [(1, 1, (15/2) * σ),
    (1, 2, (45/2) * l * σ),
    (1, 3, (45/2) * l ^ 2 * σ + (-35/2) * σ ^ 3),
    (1, 4, (15/2) * l ^ 3 * σ + (-105/2) * l * σ ^ 3),
    (1, 5, (-105/2) * l ^ 2 * σ ^ 3),
    (1, 6, (-35/2) * l ^ 3 * σ ^ 3),
    (2, 1, (45/2) * k * σ),
    (2, 2, (45) * k * l * σ),
    (2, 3, (45/2) * k * l ^ 2 * σ + (-105/2) * k * σ ^ 3),
    (2, 4, (-105) * k * l * σ ^ 3),
    (2, 5, (-105/2) * k * l ^ 2 * σ ^ 3),
    (3, 1, (45/2) * k ^ 2 * σ),
    (3, 2, (45/2) * k ^ 2 * l * σ),
    (3, 3, (-105/2) * k ^ 2 * σ ^ 3),
    (3, 4, (-105/2) * k ^ 2 * l * σ ^ 3),
    (4, 1, (15/2) * k ^ 3 * σ),
    (4, 3, (-35/2) * k ^ 3 * σ ^ 3)] (fun θ => ?_) ?_
  · simp only [List.map_cons, List.map_nil, List.sum_cons, List.sum_nil]
    ring
  · simp only [List.map_cons, List.map_nil, List.sum_cons, List.sum_nil, trigMoment_cos, trigMoment_sin, trigMoment_one_left,
      trigMoment_one_right, trigMoment_zero]
    push_cast
    ring

theorem turn4_t2 (k l σ : ℝ) : ∫ θ in (0 : ℝ)..2 * Real.pi, ((15 / 8 * ((σ * Real.sin θ) * (4 - 28 / 3 * (σ * Real.sin θ) ^ 2))) * (1 + k * Real.cos θ + l * Real.sin θ) ^ 3 * Real.sin θ)
    = Real.pi * ((45/8) * k ^ 2 * σ + (15/2) * σ + (135/8) * l ^ 2 * σ + (-105/8) * σ ^ 3 + (-105/16) * k ^ 2 * σ ^ 3 + (-525/16) * l ^ 2 * σ ^ 3) := by
  refine turn_of_list [(0, 2, (15/2) * σ),
    (0, 3, (45/2) * l * σ),
    (0, 4, (45/2) * l ^ 2 * σ + (-35/2) * σ ^ 3),
    (0, 5, (15/2) * l ^ 3 * σ + (-105/2) * l * σ ^ 3),
    (0, 6, (-105/2) * l ^ 2 * σ ^ 3),
    (0, 7, (-35/2) * l ^ 3 * σ ^ 3),
    (1, 2, (45/2) * k * σ),
    (1, 3, (45) * k * l * σ),
    (1, 4, (45/2) * k * l ^ 2 * σ + (-105/2) * k * σ ^ 3),
    (1, 5, (-105) * k * l * σ ^ 3),
    (1, 6, (-105/2) * k * l ^ 2 * σ ^ 3),
    (2, 2, (45/2) * k ^ 2 * σ),
    (2, 3, (45/2) * k ^ 2 * l * σ),
    (2, 4, (-105/2) * k ^ 2 * σ ^ 3),
    (2, 5, (-105/2) * k ^ 2 * l * σ ^ 3),
    (3, 2, (15/2) * k ^ 3 * σ),
    (3, 4, (-35/2) * k ^ 3 * σ ^ 3)] (fun θ => ?_) ?_
  · simp only [List.map_cons, List.map_nil, List.sum_cons, List.sum_nil]
    ring
  · simp only [List.map_cons, List.map_nil, List.sum_cons, List.sum_nil, trigMoment_cos, trigMoment_sin, trigMoment_one_left,
      trigMoment_one_right, trigMoment_zero]
    push_cast
    ring

set_option maxHeartbeats 400000 in
theorem turn4_gN (k l σ : ℝ) : ∫ θ in (0 : ℝ)..2 * Real.pi, ((15 / 8 * (1 - 14 * (σ * Real.sin θ) ^ 2 + 21 * (σ * Real.sin θ) ^ 4)) * (1 + k * Real.cos θ + l * Real.sin θ) ^ 4 * Real.sin θ + (15 / 8 * ((σ * Real.sin θ) * (4 - 28 / 3 * (σ * Real.sin θ) ^ 2))) * (1 + k * Real.cos θ + l * Real.sin θ) ^ 4 * σ + (15 / 8 * ((σ * Real.sin θ) * (4 - 28 / 3 * (σ * Real.sin θ) ^ 2))) * (1 + k * Real.cos θ + l * Real.sin θ) ^ 3 * (Real.cos θ + k) * σ * Real.cos θ)
    = Real.pi * ((45/8) * k ^ 2 * l + (-45/16) * k ^ 2 * l * σ ^ 2 + (-345/8) * l * σ ^ 2 + (15/2) * l + (45/8) * l ^ 3 + (-675/16) * l ^ 3 * σ ^ 2 + (315/8) * l * σ ^ 4 + (-315/64) * k ^ 2 * l * σ ^ 4 + (2625/64) * l ^ 3 * σ ^ 4) := by
  refine turn_of_list [(0, 1, (15/8) + (15/2) * σ ^ 2),
    (0, 2, (15/2) * l + (30) * l * σ ^ 2),
    (0, 3, (45/4) * l ^ 2 + (-105/4) * σ ^ 2 + (45) * l ^ 2 * σ ^ 2 + (-35/2) * σ ^ 4),
    (0, 4, (15/2) * l ^ 3 + (-105) * l * σ ^ 2 + (30) * l ^ 3 * σ ^ 2 + (-70) * l * σ ^ 4),
    (0, 5, (15/8) * l ^ 4 + (-315/2) * l ^ 2 * σ ^ 2 + (315/8) * σ ^ 4 + (15/2) * l ^ 4 * σ ^ 2 + (-105) * l ^ 2 * σ ^ 4),
    (0, 6, (-105) * l ^ 3 * σ ^ 2 + (315/2) * l * σ ^ 4 + (-70) * l ^ 3 * σ ^ 4),
    (0, 7, (-105/4) * l ^ 4 * σ ^ 2 + (945/4) * l ^ 2 * σ ^ 4 + (-35/2) * l ^ 4 * σ ^ 4),
    (0, 8, (315/2) * l ^ 3 * σ ^ 4),
    (0, 9, (315/8) * l ^ 4 * σ ^ 4),
    (1, 1, (15/2) * k + (75/2) * k * σ ^ 2),
    (1, 2, (45/2) * k * l + (225/2) * k * l * σ ^ 2),
    (1, 3, (45/2) * k * l ^ 2 + (-105) * k * σ ^ 2 + (225/2) * k * l ^ 2 * σ ^ 2 + (-175/2) * k * σ ^ 4),
    (1, 4, (15/2) * k * l ^ 3 + (-315) * k * l * σ ^ 2 + (75/2) * k * l ^ 3 * σ ^ 2 + (-525/2) * k * l * σ ^ 4),
    (1, 5, (-315) * k * l ^ 2 * σ ^ 2 + (315/2) * k * σ ^ 4 + (-525/2) * k * l ^ 2 * σ ^ 4),
    (1, 6, (-105) * k * l ^ 3 * σ ^ 2 + (945/2) * k * l * σ ^ 4 + (-175/2) * k * l ^ 3 * σ ^ 4),
    (1, 7, (945/2) * k * l ^ 2 * σ ^ 4),
    (1, 8, (315/2) * k * l ^ 3 * σ ^ 4),
    (2, 1, (45/4) * k ^ 2 + (135/2) * k ^ 2 * σ ^ 2 + (15/2) * σ ^ 2),
    (2, 2, (45/2) * k ^ 2 * l + (135) * k ^ 2 * l * σ ^ 2 + (45/2) * l * σ ^ 2),
    (2, 3, (45/4) * k ^ 2 * l ^ 2 + (-315/2) * k ^ 2 * σ ^ 2 + (135/2) * k ^ 2 * l ^ 2 * σ ^ 2 + (-315/2) * k ^ 2 * σ ^ 4 + (45/2) * l ^ 2 * σ ^ 2 + (-35/2) * σ ^ 4),
    (2, 4, (-315) * k ^ 2 * l * σ ^ 2 + (-315) * k ^ 2 * l * σ ^ 4 + (15/2) * l ^ 3 * σ ^ 2 + (-105/2) * l * σ ^ 4),
    (2, 5, (-315/2) * k ^ 2 * l ^ 2 * σ ^ 2 + (945/4) * k ^ 2 * σ ^ 4 + (-315/2) * k ^ 2 * l ^ 2 * σ ^ 4 + (-105/2) * l ^ 2 * σ ^ 4),
    (2, 6, (945/2) * k ^ 2 * l * σ ^ 4 + (-35/2) * l ^ 3 * σ ^ 4),
    (2, 7, (945/4) * k ^ 2 * l ^ 2 * σ ^ 4),
    (3, 1, (15/2) * k ^ 3 + (105/2) * k ^ 3 * σ ^ 2 + (45/2) * k * σ ^ 2),
    (3, 2, (15/2) * k ^ 3 * l + (105/2) * k ^ 3 * l * σ ^ 2 + (45) * k * l * σ ^ 2),
    (3, 3, (-105) * k ^ 3 * σ ^ 2 + (-245/2) * k ^ 3 * σ ^ 4 + (45/2) * k * l ^ 2 * σ ^ 2 + (-105/2) * k * σ ^ 4),
    (3, 4, (-105) * k ^ 3 * l * σ ^ 2 + (-245/2) * k ^ 3 * l * σ ^ 4 + (-105) * k * l * σ ^ 4),
    (3, 5, (315/2) * k ^ 3 * σ ^ 4 + (-105/2) * k * l ^ 2 * σ ^ 4),
    (3, 6, (315/2) * k ^ 3 * l * σ ^ 4),
    (4, 1, (15/8) * k ^ 4 + (15) * k ^ 4 * σ ^ 2 + (45/2) * k ^ 2 * σ ^ 2),
    (4, 2, (45/2) * k ^ 2 * l * σ ^ 2),
    (4, 3, (-105/4) * k ^ 4 * σ ^ 2 + (-35) * k ^ 4 * σ ^ 4 + (-105/2) * k ^ 2 * σ ^ 4),
    (4, 4, (-105/2) * k ^ 2 * l * σ ^ 4),
    (4, 5, (315/8) * k ^ 4 * σ ^ 4),
    (5, 1, (15/2) * k ^ 3 * σ ^ 2),
    (5, 3, (-35/2) * k ^ 3 * σ ^ 4)] (fun θ => ?_) ?_
  · simp only [List.map_cons, List.map_nil, List.sum_cons, List.sum_nil]
    ring
  · simp only [List.map_cons, List.map_nil, List.sum_cons, List.sum_nil, trigMoment_cos, trigMoment_sin, trigMoment_one_left,
      trigMoment_one_right, trigMoment_zero]
    push_cast
    ring

theorem turn4_gM (k l σ : ℝ) : ∫ θ in (0 : ℝ)..2 * Real.pi, (-((15 / 8 * (1 - 14 * (σ * Real.sin θ) ^ 2 + 21 * (σ * Real.sin θ) ^ 4)) * (1 + k * Real.cos θ + l * Real.sin θ) ^ 4 * Real.cos θ) + (15 / 8 * ((σ * Real.sin θ) * (4 - 28 / 3 * (σ * Real.sin θ) ^ 2))) * (1 + k * Real.cos θ + l * Real.sin θ) ^ 3 * (Real.cos θ + k) * σ * Real.sin θ - (15 / 8 * ((σ * Real.sin θ) * (4 - 28 / 3 * (σ * Real.sin θ) ^ 2))) * (1 + k * Real.cos θ + l * Real.sin θ) ^ 3 * (k * Real.sin θ - l * Real.cos θ) * σ)
    = Real.pi * ((-45/8) * k ^ 3 + (-15/2) * k + (-45/8) * k * l ^ 2 + (255/8) * k * σ ^ 2 + (855/16) * k * l ^ 2 * σ ^ 2 + (225/16) * k ^ 3 * σ ^ 2 + (-105/4) * k * σ ^ 4 + (-3465/64) * k * l ^ 2 * σ ^ 4 + (-525/64) * k ^ 3 * σ ^ 4) := by
  refine turn_of_list [(1, 0, (-15/8)),
    (1, 1, (-15/2) * l + (15/2) * l * σ ^ 2),
    (1, 2, (-45/4) * l ^ 2 + (135/4) * σ ^ 2 + (45/2) * l ^ 2 * σ ^ 2),
    (1, 3, (-15/2) * l ^ 3 + (255/2) * l * σ ^ 2 + (45/2) * l ^ 3 * σ ^ 2 + (-35/2) * l * σ ^ 4),
    (1, 4, (-15/8) * l ^ 4 + (180) * l ^ 2 * σ ^ 2 + (-455/8) * σ ^ 4 + (15/2) * l ^ 4 * σ ^ 2 + (-105/2) * l ^ 2 * σ ^ 4),
    (1, 5, (225/2) * l ^ 3 * σ ^ 2 + (-210) * l * σ ^ 4 + (-105/2) * l ^ 3 * σ ^ 4),
    (1, 6, (105/4) * l ^ 4 * σ ^ 2 + (-1155/4) * l ^ 2 * σ ^ 4 + (-35/2) * l ^ 4 * σ ^ 4),
    (1, 7, (-175) * l ^ 3 * σ ^ 4),
    (1, 8, (-315/8) * l ^ 4 * σ ^ 4),
    (2, 0, (-15/2) * k),
    (2, 1, (-45/2) * k * l + (45/2) * k * l * σ ^ 2),
    (2, 2, (-45/2) * k * l ^ 2 + (255/2) * k * σ ^ 2 + (45) * k * l ^ 2 * σ ^ 2),
    (2, 3, (-15/2) * k * l ^ 3 + (360) * k * l * σ ^ 2 + (45/2) * k * l ^ 3 * σ ^ 2 + (-105/2) * k * l * σ ^ 4),
    (2, 4, (675/2) * k * l ^ 2 * σ ^ 2 + (-210) * k * σ ^ 4 + (-105) * k * l ^ 2 * σ ^ 4),
    (2, 5, (105) * k * l ^ 3 * σ ^ 2 + (-1155/2) * k * l * σ ^ 4 + (-105/2) * k * l ^ 3 * σ ^ 4),
    (2, 6, (-525) * k * l ^ 2 * σ ^ 4),
    (2, 7, (-315/2) * k * l ^ 3 * σ ^ 4),
    (3, 0, (-45/4) * k ^ 2),
    (3, 1, (-45/2) * k ^ 2 * l + (45/2) * k ^ 2 * l * σ ^ 2),
    (3, 2, (-45/4) * k ^ 2 * l ^ 2 + (180) * k ^ 2 * σ ^ 2 + (45/2) * k ^ 2 * l ^ 2 * σ ^ 2),
    (3, 3, (675/2) * k ^ 2 * l * σ ^ 2 + (-105/2) * k ^ 2 * l * σ ^ 4),
    (3, 4, (315/2) * k ^ 2 * l ^ 2 * σ ^ 2 + (-1155/4) * k ^ 2 * σ ^ 4 + (-105/2) * k ^ 2 * l ^ 2 * σ ^ 4),
    (3, 5, (-525) * k ^ 2 * l * σ ^ 4),
    (3, 6, (-945/4) * k ^ 2 * l ^ 2 * σ ^ 4),
    (4, 0, (-15/2) * k ^ 3),
    (4, 1, (-15/2) * k ^ 3 * l + (15/2) * k ^ 3 * l * σ ^ 2),
    (4, 2, (225/2) * k ^ 3 * σ ^ 2),
    (4, 3, (105) * k ^ 3 * l * σ ^ 2 + (-35/2) * k ^ 3 * l * σ ^ 4),
    (4, 4, (-175) * k ^ 3 * σ ^ 4),
    (4, 5, (-315/2) * k ^ 3 * l * σ ^ 4),
    (5, 0, (-15/8) * k ^ 4),
    (5, 2, (105/4) * k ^ 4 * σ ^ 2),
    (5, 4, (-315/8) * k ^ 4 * σ ^ 4)] (fun θ => ?_) ?_
  · simp only [List.map_cons, List.map_nil, List.sum_cons, List.sum_nil]
    ring
  · simp only [List.map_cons, List.map_nil, List.sum_cons, List.sum_nil, trigMoment_cos, trigMoment_sin, trigMoment_one_left,
      trigMoment_one_right, trigMoment_zero]
    push_cast
    ring

theorem turn4_gP (k l σ : ℝ) : ∫ θ in (0 : ℝ)..2 * Real.pi, (-((15 / 8 * ((σ * Real.sin θ) * (4 - 28 / 3 * (σ * Real.sin θ) ^ 2))) * (1 + k * Real.cos θ + l * Real.sin θ) ^ 3 * (k * Real.sin θ - l * Real.cos θ)))
    = Real.pi * ((-45/8) * k ^ 3 * σ + (-45/8) * k * l ^ 2 * σ + (-15/2) * k * σ + (105/8) * k * σ ^ 3 + (105/16) * k ^ 3 * σ ^ 3 + (315/16) * k * l ^ 2 * σ ^ 3) := by
  refine turn_of_list [(0, 2, (-15/2) * k * σ),
    (0, 3, (-45/2) * k * l * σ),
    (0, 4, (-45/2) * k * l ^ 2 * σ + (35/2) * k * σ ^ 3),
    (0, 5, (-15/2) * k * l ^ 3 * σ + (105/2) * k * l * σ ^ 3),
    (0, 6, (105/2) * k * l ^ 2 * σ ^ 3),
    (0, 7, (35/2) * k * l ^ 3 * σ ^ 3),
    (1, 1, (15/2) * l * σ),
    (1, 2, (-45/2) * k ^ 2 * σ + (45/2) * l ^ 2 * σ),
    (1, 3, (-45) * k ^ 2 * l * σ + (45/2) * l ^ 3 * σ + (-35/2) * l * σ ^ 3),
    (1, 4, (-45/2) * k ^ 2 * l ^ 2 * σ + (15/2) * l ^ 4 * σ + (105/2) * k ^ 2 * σ ^ 3 + (-105/2) * l ^ 2 * σ ^ 3),
    (1, 5, (105) * k ^ 2 * l * σ ^ 3 + (-105/2) * l ^ 3 * σ ^ 3),
    (1, 6, (105/2) * k ^ 2 * l ^ 2 * σ ^ 3 + (-35/2) * l ^ 4 * σ ^ 3),
    (2, 1, (45/2) * k * l * σ),
    (2, 2, (-45/2) * k ^ 3 * σ + (45) * k * l ^ 2 * σ),
    (2, 3, (-45/2) * k ^ 3 * l * σ + (45/2) * k * l ^ 3 * σ + (-105/2) * k * l * σ ^ 3),
    (2, 4, (105/2) * k ^ 3 * σ ^ 3 + (-105) * k * l ^ 2 * σ ^ 3),
    (2, 5, (105/2) * k ^ 3 * l * σ ^ 3 + (-105/2) * k * l ^ 3 * σ ^ 3),
    (3, 1, (45/2) * k ^ 2 * l * σ),
    (3, 2, (-15/2) * k ^ 4 * σ + (45/2) * k ^ 2 * l ^ 2 * σ),
    (3, 3, (-105/2) * k ^ 2 * l * σ ^ 3),
    (3, 4, (35/2) * k ^ 4 * σ ^ 3 + (-105/2) * k ^ 2 * l ^ 2 * σ ^ 3),
    (4, 1, (15/2) * k ^ 3 * l * σ),
    (4, 3, (-35/2) * k ^ 3 * l * σ ^ 3)] (fun θ => ?_) ?_
  · simp only [List.map_cons, List.map_nil, List.sum_cons, List.sum_nil]
    ring
  · simp only [List.map_cons, List.map_nil, List.sum_cons, List.sum_nil, trigMoment_cos, trigMoment_sin, trigMoment_one_left,
      trigMoment_one_right, trigMoment_zero]
    push_cast
    ring

/-- The J3 term along the radius and along the axis. -/
theorem j3_vec {args : Args ℝ} {mu J R : ℝ} {acc : V3 ℝ → V3 ℝ} (hacc : IsField j3_acc args acc) (hm : args "mu" = some mu)
    (hJ : args "J3" = some J) (hR : args "R_eq" = some R) (q : V3 ℝ) :
    acc q = (-(5 / 2) * mu * J * R ^ 3 / V3.norm q ^ 7 * (3 * q.z - 7 * (q.z ^ 3 / V3.norm q ^ 2))) • q
      + (-(5 / 2) * mu * J * R ^ 3 / V3.norm q ^ 7 * (3 * q.z ^ 2 - 3 / 5 * V3.norm q ^ 2)) • (⟨0, 0, 1⟩ : V3 ℝ) := by
  have h := hacc 0 [] q
  simp only [j3_acc, Args.get, hm, hJ, hR, bind, Except.bind, pure, Except.pure, Except.ok.injEq] at h
  rw [← h]
  ext <;> simp only [add_x, add_y, add_z, smul_x, smul_y, smul_z, Nat.cast_ofNat] <;> ring

/-- The J4 term along the radius and along the axis. -/
theorem j4_vec {args : Args ℝ} {mu J R : ℝ} {acc : V3 ℝ → V3 ℝ} (hacc : IsField j4_acc args acc) (hm : args "mu" = some mu)
    (hJ : args "J4" = some J) (hR : args "R_eq" = some R) (q : V3 ℝ) :
    acc q = (15 / 8 * mu * J * R ^ 4 / V3.norm q ^ 7 * (1 - 14 * (q.z / V3.norm q) ^ 2 + 21 * ((q.z / V3.norm q) ^ 2) ^ 2)) • q
      + (15 / 8 * mu * J * R ^ 4 / V3.norm q ^ 7 * (q.z * (4 - 28 / 3 * (q.z / V3.norm q) ^ 2))) • (⟨0, 0, 1⟩ : V3 ℝ) := by
  have h := hacc 0 [] q
  simp only [j4_acc, Args.get, hm, hJ, hR, bind, Except.bind, pure, Except.pure, Except.ok.injEq] at h
  rw [← h]
  ext <;> simp only [add_x, add_y, add_z, smul_x, smul_y, smul_z, Nat.cast_ofNat, Nat.cast_one] <;> ring

section
variable {p e mu : ℝ} (hp : 0 < p) (h0 : 0 ≤ e) (h1 : e < 1) (hmu : 0 < mu) (i Ω ω f0 : ℝ)
  {args : Args ℝ} {J R : ℝ} {acc : V3 ℝ → V3 ℝ} (hm : args "mu" = some mu) (hR : args "R_eq" = some R)
include hp h0 h1 hmu hm hR

/-- C90: the change of the angular momentum over one period under J3. -/
theorem C90_j3_momentum (hacc : IsField j3_acc args acc) (hJ : args "J3" = some J) :
    let k := e * Real.cos ω
    let l := e * Real.sin ω
    intV 0 (orb_period (p / (1 - e ^ 2)) mu) (fun t =>
      V3.cross (exactProp (coe2rv p e i Ω ω f0 mu).1 (coe2rv p e i Ω ω f0 mu).2 mu t).1 (acc (exactProp (coe2rv p e i Ω ω f0 mu).1 (coe2rv p e i Ω ω f0 mu).2 mu t).1))
    = (Real.pi * J * (R / p) ^ 3 * Real.sqrt (mu * p)) • (((-15/4) * k * Real.sin i ^ 2 + (3) * k) • (⟨Real.sin Ω, -Real.cos Ω, 0⟩ : V3 ℝ)
      + (((-45/4) * l * Real.sin i ^ 2 + (3) * l) * Real.cos i) • nodeDir Ω) := by
  intro k l
  have hk := (C21_solves_two_body hmu (orbit_h hp h0 h1 hmu i Ω ω f0)).2
  have cq : ContV fun t => (exactProp (coe2rv p e i Ω ω f0 mu).1 (coe2rv p e i Ω ω f0 mu).2 mu t).1 := .of_deriv fun t => (hk t trivial).2.1
  have co := (orbit_cont hp h0 h1 hmu i Ω ω).1
  have hH := Real.sqrt_pos.2 (mul_pos hmu hp)
  have hH2 := Real.sq_sqrt (mul_pos hmu hp).le
  rw [average_vec hp h0 h1 hmu i Ω ω f0 (fun r _ => V3.cross r (acc r)) (cq.cross (cq.zonal hm hR (.inr (.inl ⟨hJ, hacc⟩)) fun t => (hk t trivial).1))
    (co.cross (co.zonal hm hR (.inr (.inl ⟨hJ, hacc⟩)) (orbit_ne hp h0 h1 hmu i Ω ω)))
    (g1 := fun θ => (-(5 / 2) * (3 * (Real.sin i * Real.sin θ) ^ 2 - 3 / 5)) * (1 + (e * Real.cos ω) * Real.cos θ + (e * Real.sin ω) * Real.sin θ) ^ 2 * Real.cos θ)
    (g2 := fun θ => (-(5 / 2) * (3 * (Real.sin i * Real.sin θ) ^ 2 - 3 / 5)) * (1 + (e * Real.cos ω) * Real.cos θ + (e * Real.sin ω) * Real.sin θ) ^ 2 * Real.sin θ) (g3 := fun _ => 0)
    (by fun_prop) (by fun_prop) (by fun_prop)
    ((J * (R / p) ^ 3 * Real.sqrt (mu * p)) • (⟨Real.sin Ω, -Real.cos Ω, 0⟩ : V3 ℝ))
    ((J * (R / p) ^ 3 * Real.sqrt (mu * p) * Real.cos i) • nodeDir Ω) ⟨0, 0, 0⟩ ?_, turn3_t1, turn3_t2]
  · ext <;> simp [k, l, nodeDir] <;> ring
  · clear k l
    intro θ
    have hf : 0 < 1 + e * Real.cos (θ - ω) := by nlinarith [Real.neg_one_le_cos (θ - ω)]
    have hw : 1 + (e * Real.cos ω) * Real.cos θ + (e * Real.sin ω) * Real.sin θ = 1 + e * Real.cos (θ - ω) := by
      rw [Real.cos_sub]; ring
    have hn : V3.norm (coe2rv p e i Ω ω (θ - ω) mu).1 = p / (1 + e * Real.cos (θ - ω)) := by
      rw [(C32_magnitudes hp hmu hf i Ω ω h0).1]; simp [equ_of_orbit]
    rw [j3_vec hacc hm hJ hR, hn, orbit_pos hp h0 h1 hmu, hw]
    set W := 1 + e * Real.cos (θ - ω)
    clear_value W
    have hmp : mu = Real.sqrt (mu * p) ^ 2 / p := by rw [hH2]; field_simp
    generalize Real.sqrt (mu * p) = H at hH hmp ⊢
    rw [hmp]
    ext <;> simp only [V3.cross, nodeDir, aheadDir, add_x, add_y, add_z, smul_x, smul_y, smul_z] <;> field_simp <;> ring

/-- C90: the change of the eccentricity vector over one period under J3. -/
theorem C90_j3_eccentricity (hacc : IsField j3_acc args acc) (hJ : args "J3" = some J) :
    let k := e * Real.cos ω
    let l := e * Real.sin ω
    intV 0 (orb_period (p / (1 - e ^ 2)) mu) (fun t =>
      (1 / mu) • (V3.cross (acc (exactProp (coe2rv p e i Ω ω f0 mu).1 (coe2rv p e i Ω ω f0 mu).2 mu t).1) (angular_momentum (exactProp (coe2rv p e i Ω ω f0 mu).1 (coe2rv p e i Ω ω f0 mu).2 mu t).1 (exactProp (coe2rv p e i Ω ω f0 mu).1 (coe2rv p e i Ω ω f0 mu).2 mu t).2)
        + V3.cross (exactProp (coe2rv p e i Ω ω f0 mu).1 (coe2rv p e i Ω ω f0 mu).2 mu t).2 (V3.cross (exactProp (coe2rv p e i Ω ω f0 mu).1 (coe2rv p e i Ω ω f0 mu).2 mu t).1 (acc (exactProp (coe2rv p e i Ω ω f0 mu).1 (coe2rv p e i Ω ω f0 mu).2 mu t).1))))
    = (Real.pi * J * (R / p) ^ 3) • (((3) * k ^ 2 * Real.sin i + (-15/4) * k ^ 2 * Real.sin i ^ 3 + (15/4) * Real.sin i ^ 3 + (-12) * l ^ 2 * Real.sin i + (-3) * Real.sin i + (15) * l ^ 2 * Real.sin i ^ 3) • nodeDir Ω
      + ((15) * k * l * Real.sin i + (-75/4) * k * l * Real.sin i ^ 3) • aheadDir i Ω
      + (((15/2) * k * l * Real.sin i ^ 2) * Real.cos i) • poleDir i Ω) := by
  intro k l
  have hk := (C21_solves_two_body hmu (orbit_h hp h0 h1 hmu i Ω ω f0)).2
  have cq : ContV fun t => (exactProp (coe2rv p e i Ω ω f0 mu).1 (coe2rv p e i Ω ω f0 mu).2 mu t).1 := .of_deriv fun t => (hk t trivial).2.1
  have cv : ContV fun t => (exactProp (coe2rv p e i Ω ω f0 mu).1 (coe2rv p e i Ω ω f0 mu).2 mu t).2 := .of_deriv fun t => (hk t trivial).2.2
  have ca := cq.zonal hm hR (.inr (.inl ⟨hJ, hacc⟩)) fun t => (hk t trivial).1
  obtain ⟨co, cw⟩ := orbit_cont hp h0 h1 hmu i Ω ω
  have cb := co.zonal hm hR (.inr (.inl ⟨hJ, hacc⟩)) (orbit_ne hp h0 h1 hmu i Ω ω)
  have hH := Real.sqrt_pos.2 (mul_pos hmu hp)
  rw [average_vec hp h0 h1 hmu i Ω ω f0
    (fun r v => (1 / mu) • (V3.cross (acc r) (angular_momentum r v) + V3.cross v (V3.cross r (acc r))))
    (.smul continuous_const ((ca.cross (cq.cross cv)).add (cv.cross (cq.cross ca))))
    (.smul continuous_const ((cb.cross (co.cross cw)).add (cw.cross (co.cross cb))))
    (g1 := fun θ => (-(5 / 2) * (3 * (Real.sin i * Real.sin θ) - 7 * (Real.sin i * Real.sin θ) ^ 3)) * (1 + (e * Real.cos ω) * Real.cos θ + (e * Real.sin ω) * Real.sin θ) ^ 3 * Real.sin θ + (-(5 / 2) * (3 * (Real.sin i * Real.sin θ) ^ 2 - 3 / 5)) * (1 + (e * Real.cos ω) * Real.cos θ + (e * Real.sin ω) * Real.sin θ) ^ 3 * Real.sin i + (-(5 / 2) * (3 * (Real.sin i * Real.sin θ) ^ 2 - 3 / 5)) * (1 + (e * Real.cos ω) * Real.cos θ + (e * Real.sin ω) * Real.sin θ) ^ 2 * (Real.cos θ + (e * Real.cos ω)) * Real.sin i * Real.cos θ)
    (g2 := fun θ => -((-(5 / 2) * (3 * (Real.sin i * Real.sin θ) - 7 * (Real.sin i * Real.sin θ) ^ 3)) * (1 + (e * Real.cos ω) * Real.cos θ + (e * Real.sin ω) * Real.sin θ) ^ 3 * Real.cos θ) + (-(5 / 2) * (3 * (Real.sin i * Real.sin θ) ^ 2 - 3 / 5)) * (1 + (e * Real.cos ω) * Real.cos θ + (e * Real.sin ω) * Real.sin θ) ^ 2 * (Real.cos θ + (e * Real.cos ω)) * Real.sin i * Real.sin θ - (-(5 / 2) * (3 * (Real.sin i * Real.sin θ) ^ 2 - 3 / 5)) * (1 + (e * Real.cos ω) * Real.cos θ + (e * Real.sin ω) * Real.sin θ) ^ 2 * ((e * Real.cos ω) * Real.sin θ - (e * Real.sin ω) * Real.cos θ) * Real.sin i)
    (g3 := fun θ => -((-(5 / 2) * (3 * (Real.sin i * Real.sin θ) ^ 2 - 3 / 5)) * (1 + (e * Real.cos ω) * Real.cos θ + (e * Real.sin ω) * Real.sin θ) ^ 2 * ((e * Real.cos ω) * Real.sin θ - (e * Real.sin ω) * Real.cos θ)))
    (by fun_prop) (by fun_prop) (by fun_prop)
    ((J * (R / p) ^ 3) • nodeDir Ω) ((J * (R / p) ^ 3) • aheadDir i Ω) ((J * (R / p) ^ 3 * Real.cos i) • poleDir i Ω) ?_,
    turn3_gN, turn3_gM, turn3_gP]
  · generalize nodeDir Ω = N
    generalize aheadDir i Ω = M
    generalize poleDir i Ω = P
    ext <;> simp only [k, l, add_x, add_y, add_z, smul_x, smul_y, smul_z] <;> ring
  · clear k l
    intro θ
    have hf : 0 < 1 + e * Real.cos (θ - ω) := by nlinarith [Real.neg_one_le_cos (θ - ω)]
    have hw : 1 + (e * Real.cos ω) * Real.cos θ + (e * Real.sin ω) * Real.sin θ = 1 + e * Real.cos (θ - ω) := by
      rw [Real.cos_sub]; ring
    have hn : V3.norm (coe2rv p e i Ω ω (θ - ω) mu).1 = p / (1 + e * Real.cos (θ - ω)) := by
      rw [(C32_magnitudes hp hmu hf i Ω ω h0).1]; simp [equ_of_orbit]
    rw [(C32_geometry hp hmu hf i Ω ω).2.1, j3_vec hacc hm hJ hR, hn, orbit_pos hp h0 h1 hmu, orbit_vel hp hmu, ecc_rate_frame, hw]
    set W := 1 + e * Real.cos (θ - ω)
    have hz : ((p / W) • (Real.cos θ • nodeDir Ω + Real.sin θ • aheadDir i Ω)).z = p / W * (Real.sin θ * Real.sin i) := by
      simp [nodeDir, aheadDir]
    rw [hz]
    clear_value W
    generalize Real.sqrt (mu * p) = H at hH ⊢
    generalize hN : nodeDir Ω = N
    generalize hM : aheadDir i Ω = M
    generalize hP : poleDir i Ω = P
    ext <;> simp only [add_x, add_y, add_z, smul_x, smul_y, smul_z] <;> field_simp

/-- C90: the change of the angular momentum over one period under J4. -/
theorem C90_j4_momentum (hacc : IsField j4_acc args acc) (hJ : args "J4" = some J) :
    let k := e * Real.cos ω
    let l := e * Real.sin ω
    intV 0 (orb_period (p / (1 - e ^ 2)) mu) (fun t =>
      V3.cross (exactProp (coe2rv p e i Ω ω f0 mu).1 (coe2rv p e i Ω ω f0 mu).2 mu t).1 (acc (exactProp (coe2rv p e i Ω ω f0 mu).1 (coe2rv p e i Ω ω f0 mu).2 mu t).1))
    = (Real.pi * J * (R / p) ^ 4 * Real.sqrt (mu * p)) • (((45/4) * k * l * Real.sin i + (-105/8) * k * l * Real.sin i ^ 3) • (⟨Real.sin Ω, -Real.cos Ω, 0⟩ : V3 ℝ)
      + (((45/8) * k ^ 2 * Real.sin i + (15/2) * Real.sin i + (135/8) * l ^ 2 * Real.sin i + (-105/8) * Real.sin i ^ 3 + (-105/16) * k ^ 2 * Real.sin i ^ 3 + (-525/16) * l ^ 2 * Real.sin i ^ 3) * Real.cos i) • nodeDir Ω) := by
  intro k l
  have hk := (C21_solves_two_body hmu (orbit_h hp h0 h1 hmu i Ω ω f0)).2
  have cq : ContV fun t => (exactProp (coe2rv p e i Ω ω f0 mu).1 (coe2rv p e i Ω ω f0 mu).2 mu t).1 := .of_deriv fun t => (hk t trivial).2.1
  have co := (orbit_cont hp h0 h1 hmu i Ω ω).1
  have hH := Real.sqrt_pos.2 (mul_pos hmu hp)
  have hH2 := Real.sq_sqrt (mul_pos hmu hp).le
  rw [average_vec hp h0 h1 hmu i Ω ω f0 (fun r _ => V3.cross r (acc r)) (cq.cross (cq.zonal hm hR (.inr (.inr ⟨hJ, hacc⟩)) fun t => (hk t trivial).1))
    (co.cross (co.zonal hm hR (.inr (.inr ⟨hJ, hacc⟩)) (orbit_ne hp h0 h1 hmu i Ω ω)))
    (g1 := fun θ => (15 / 8 * ((Real.sin i * Real.sin θ) * (4 - 28 / 3 * (Real.sin i * Real.sin θ) ^ 2))) * (1 + (e * Real.cos ω) * Real.cos θ + (e * Real.sin ω) * Real.sin θ) ^ 3 * Real.cos θ)
    (g2 := fun θ => (15 / 8 * ((Real.sin i * Real.sin θ) * (4 - 28 / 3 * (Real.sin i * Real.sin θ) ^ 2))) * (1 + (e * Real.cos ω) * Real.cos θ + (e * Real.sin ω) * Real.sin θ) ^ 3 * Real.sin θ) (g3 := fun _ => 0)
    (by fun_prop) (by fun_prop) (by fun_prop)
    ((J * (R / p) ^ 4 * Real.sqrt (mu * p)) • (⟨Real.sin Ω, -Real.cos Ω, 0⟩ : V3 ℝ))
    ((J * (R / p) ^ 4 * Real.sqrt (mu * p) * Real.cos i) • nodeDir Ω) ⟨0, 0, 0⟩ ?_, turn4_t1, turn4_t2]
  · ext <;> simp [k, l, nodeDir] <;> ring
  · clear k l
    intro θ
    have hf : 0 < 1 + e * Real.cos (θ - ω) := by nlinarith [Real.neg_one_le_cos (θ - ω)]
    have hw : 1 + (e * Real.cos ω) * Real.cos θ + (e * Real.sin ω) * Real.sin θ = 1 + e * Real.cos (θ - ω) := by
      rw [Real.cos_sub]; ring
    have hn : V3.norm (coe2rv p e i Ω ω (θ - ω) mu).1 = p / (1 + e * Real.cos (θ - ω)) := by
      rw [(C32_magnitudes hp hmu hf i Ω ω h0).1]; simp [equ_of_orbit]
    rw [j4_vec hacc hm hJ hR, hn, orbit_pos hp h0 h1 hmu, hw]
    set W := 1 + e * Real.cos (θ - ω)
    clear_value W
    have hmp : mu = Real.sqrt (mu * p) ^ 2 / p := by rw [hH2]; field_simp
    generalize Real.sqrt (mu * p) = H at hH hmp ⊢
    rw [hmp]
    ext <;> simp only [V3.cross, nodeDir, aheadDir, add_x, add_y, add_z, smul_x, smul_y, smul_z] <;> field_simp <;> ring

/-- C90: the change of the eccentricity vector over one period under J4. -/
theorem C90_j4_eccentricity (hacc : IsField j4_acc args acc) (hJ : args "J4" = some J) :
    let k := e * Real.cos ω
    let l := e * Real.sin ω
    intV 0 (orb_period (p / (1 - e ^ 2)) mu) (fun t =>
      (1 / mu) • (V3.cross (acc (exactProp (coe2rv p e i Ω ω f0 mu).1 (coe2rv p e i Ω ω f0 mu).2 mu t).1) (angular_momentum (exactProp (coe2rv p e i Ω ω f0 mu).1 (coe2rv p e i Ω ω f0 mu).2 mu t).1 (exactProp (coe2rv p e i Ω ω f0 mu).1 (coe2rv p e i Ω ω f0 mu).2 mu t).2)
        + V3.cross (exactProp (coe2rv p e i Ω ω f0 mu).1 (coe2rv p e i Ω ω f0 mu).2 mu t).2 (V3.cross (exactProp (coe2rv p e i Ω ω f0 mu).1 (coe2rv p e i Ω ω f0 mu).2 mu t).1 (acc (exactProp (coe2rv p e i Ω ω f0 mu).1 (coe2rv p e i Ω ω f0 mu).2 mu t).1))))
    = (Real.pi * J * (R / p) ^ 4) • (((45/8) * k ^ 2 * l + (-45/16) * k ^ 2 * l * Real.sin i ^ 2 + (-345/8) * l * Real.sin i ^ 2 + (15/2) * l + (45/8) * l ^ 3 + (-675/16) * l ^ 3 * Real.sin i ^ 2 + (315/8) * l * Real.sin i ^ 4 + (-315/64) * k ^ 2 * l * Real.sin i ^ 4 + (2625/64) * l ^ 3 * Real.sin i ^ 4) • nodeDir Ω
      + ((-45/8) * k ^ 3 + (-15/2) * k + (-45/8) * k * l ^ 2 + (255/8) * k * Real.sin i ^ 2 + (855/16) * k * l ^ 2 * Real.sin i ^ 2 + (225/16) * k ^ 3 * Real.sin i ^ 2 + (-105/4) * k * Real.sin i ^ 4 + (-3465/64) * k * l ^ 2 * Real.sin i ^ 4 + (-525/64) * k ^ 3 * Real.sin i ^ 4) • aheadDir i Ω
      + (((-45/8) * k ^ 3 * Real.sin i + (-45/8) * k * l ^ 2 * Real.sin i + (-15/2) * k * Real.sin i + (105/8) * k * Real.sin i ^ 3 + (105/16) * k ^ 3 * Real.sin i ^ 3 + (315/16) * k * l ^ 2 * Real.sin i ^ 3) * Real.cos i) • poleDir i Ω) := by
  intro k l
  have hk := (C21_solves_two_body hmu (orbit_h hp h0 h1 hmu i Ω ω f0)).2
  have cq : ContV fun t => (exactProp (coe2rv p e i Ω ω f0 mu).1 (coe2rv p e i Ω ω f0 mu).2 mu t).1 := .of_deriv fun t => (hk t trivial).2.1
  have cv : ContV fun t => (exactProp (coe2rv p e i Ω ω f0 mu).1 (coe2rv p e i Ω ω f0 mu).2 mu t).2 := .of_deriv fun t => (hk t trivial).2.2
  have ca := cq.zonal hm hR (.inr (.inr ⟨hJ, hacc⟩)) fun t => (hk t trivial).1
  obtain ⟨co, cw⟩ := orbit_cont hp h0 h1 hmu i Ω ω
  have cb := co.zonal hm hR (.inr (.inr ⟨hJ, hacc⟩)) (orbit_ne hp h0 h1 hmu i Ω ω)
  have hH := Real.sqrt_pos.2 (mul_pos hmu hp)
  rw [average_vec hp h0 h1 hmu i Ω ω f0
    (fun r v => (1 / mu) • (V3.cross (acc r) (angular_momentum r v) + V3.cross v (V3.cross r (acc r))))
    (.smul continuous_const ((ca.cross (cq.cross cv)).add (cv.cross (cq.cross ca))))
    (.smul continuous_const ((cb.cross (co.cross cw)).add (cw.cross (co.cross cb))))
    (g1 := fun θ => (15 / 8 * (1 - 14 * (Real.sin i * Real.sin θ) ^ 2 + 21 * (Real.sin i * Real.sin θ) ^ 4)) * (1 + (e * Real.cos ω) * Real.cos θ + (e * Real.sin ω) * Real.sin θ) ^ 4 * Real.sin θ + (15 / 8 * ((Real.sin i * Real.sin θ) * (4 - 28 / 3 * (Real.sin i * Real.sin θ) ^ 2))) * (1 + (e * Real.cos ω) * Real.cos θ + (e * Real.sin ω) * Real.sin θ) ^ 4 * Real.sin i + (15 / 8 * ((Real.sin i * Real.sin θ) * (4 - 28 / 3 * (Real.sin i * Real.sin θ) ^ 2))) * (1 + (e * Real.cos ω) * Real.cos θ + (e * Real.sin ω) * Real.sin θ) ^ 3 * (Real.cos θ + (e * Real.cos ω)) * Real.sin i * Real.cos θ)
    (g2 := fun θ => -((15 / 8 * (1 - 14 * (Real.sin i * Real.sin θ) ^ 2 + 21 * (Real.sin i * Real.sin θ) ^ 4)) * (1 + (e * Real.cos ω) * Real.cos θ + (e * Real.sin ω) * Real.sin θ) ^ 4 * Real.cos θ) + (15 / 8 * ((Real.sin i * Real.sin θ) * (4 - 28 / 3 * (Real.sin i * Real.sin θ) ^ 2))) * (1 + (e * Real.cos ω) * Real.cos θ + (e * Real.sin ω) * Real.sin θ) ^ 3 * (Real.cos θ + (e * Real.cos ω)) * Real.sin i * Real.sin θ - (15 / 8 * ((Real.sin i * Real.sin θ) * (4 - 28 / 3 * (Real.sin i * Real.sin θ) ^ 2))) * (1 + (e * Real.cos ω) * Real.cos θ + (e * Real.sin ω) * Real.sin θ) ^ 3 * ((e * Real.cos ω) * Real.sin θ - (e * Real.sin ω) * Real.cos θ) * Real.sin i)
    (g3 := fun θ => -((15 / 8 * ((Real.sin i * Real.sin θ) * (4 - 28 / 3 * (Real.sin i * Real.sin θ) ^ 2))) * (1 + (e * Real.cos ω) * Real.cos θ + (e * Real.sin ω) * Real.sin θ) ^ 3 * ((e * Real.cos ω) * Real.sin θ - (e * Real.sin ω) * Real.cos θ)))
    (by fun_prop) (by fun_prop) (by fun_prop)
    ((J * (R / p) ^ 4) • nodeDir Ω) ((J * (R / p) ^ 4) • aheadDir i Ω) ((J * (R / p) ^ 4 * Real.cos i) • poleDir i Ω) ?_,
    turn4_gN, turn4_gM, turn4_gP]
  · generalize nodeDir Ω = N
    generalize aheadDir i Ω = M
    generalize poleDir i Ω = P
    ext <;> simp only [k, l, add_x, add_y, add_z, smul_x, smul_y, smul_z] <;> ring
  · clear k l
    intro θ
    have hf : 0 < 1 + e * Real.cos (θ - ω) := by nlinarith [Real.neg_one_le_cos (θ - ω)]
    have hw : 1 + (e * Real.cos ω) * Real.cos θ + (e * Real.sin ω) * Real.sin θ = 1 + e * Real.cos (θ - ω) := by
      rw [Real.cos_sub]; ring
    have hn : V3.norm (coe2rv p e i Ω ω (θ - ω) mu).1 = p / (1 + e * Real.cos (θ - ω)) := by
      rw [(C32_magnitudes hp hmu hf i Ω ω h0).1]; simp [equ_of_orbit]
    rw [(C32_geometry hp hmu hf i Ω ω).2.1, j4_vec hacc hm hJ hR, hn, orbit_pos hp h0 h1 hmu, orbit_vel hp hmu, ecc_rate_frame, hw]
    set W := 1 + e * Real.cos (θ - ω)
    have hz : ((p / W) • (Real.cos θ • nodeDir Ω + Real.sin θ • aheadDir i Ω)).z = p / W * (Real.sin θ * Real.sin i) := by
      simp [nodeDir, aheadDir]
    rw [hz]
    clear_value W
    generalize Real.sqrt (mu * p) = H at hH ⊢
    generalize hN : nodeDir Ω = N
    generalize hM : aheadDir i Ω = M
    generalize hP : poleDir i Ω = P
    ext <;> simp only [add_x, add_y, add_z, smul_x, smul_y, smul_z] <;> field_simp

/-- C90: the size of the angular momentum, hence `p`, changes under J3 over one period unless the periapsis is farthest from the node, the orbit is
circular or equatorial, or the inclination is critical (`5 cos² i = 1`). -/
theorem C90_j3_frozen (hacc : IsField j3_acc args acc) (hJ : args "J3" = some J) (hJ0 : J ≠ 0) (hR0 : R ≠ 0) :
    V3.dot (intV 0 (orb_period (p / (1 - e ^ 2)) mu) (fun t =>
      V3.cross (exactProp (coe2rv p e i Ω ω f0 mu).1 (coe2rv p e i Ω ω f0 mu).2 mu t).1
        (acc (exactProp (coe2rv p e i Ω ω f0 mu).1 (coe2rv p e i Ω ω f0 mu).2 mu t).1))) (poleDir i Ω) = 0
    ↔ e = 0 ∨ Real.cos ω = 0 ∨ Real.sin i = 0 ∨ 5 * Real.cos i ^ 2 = 1 := by
  have h := C90_j3_momentum hp h0 h1 hmu i Ω ω f0 hm hR hacc hJ
  simp only at h
  rw [h]
  have hH := Real.sqrt_pos.2 (mul_pos hmu hp)
  have h2 := Real.sin_sq_add_cos_sq i
  have hΩ := Real.sin_sq_add_cos_sq Ω
  have e1 : V3.dot ((Real.pi * J * (R / p) ^ 3 * Real.sqrt (mu * p)) •
      (((-15/4) * (e * Real.cos ω) * Real.sin i ^ 2 + (3) * (e * Real.cos ω)) • (⟨Real.sin Ω, -Real.cos Ω, 0⟩ : V3 ℝ)
        + (((-45/4) * (e * Real.sin ω) * Real.sin i ^ 2 + (3) * (e * Real.sin ω)) * Real.cos i) • nodeDir Ω)) (poleDir i Ω)
      = Real.pi * J * (R / p) ^ 3 * Real.sqrt (mu * p) * (3 / 4) * (e * (Real.cos ω * (Real.sin i * (5 * Real.cos i ^ 2 - 1)))) := by
    simp only [V3.dot, nodeDir, poleDir, add_x, add_y, add_z, smul_x, smul_y, smul_z]
    linear_combination (Real.pi * J * (R / p) ^ 3 * Real.sqrt (mu * p) * e * Real.cos ω * Real.sin i * (-15/4 * Real.sin i ^ 2 + 3)) * hΩ
      - (Real.pi * J * (R / p) ^ 3 * Real.sqrt (mu * p) * e * Real.cos ω * Real.sin i * (15 / 4)) * h2
  have hne : Real.pi * J * (R / p) ^ 3 * Real.sqrt (mu * p) * (3 / 4) ≠ 0 := by
    have := Real.pi_ne_zero
    positivity
  rw [e1, mul_eq_zero, or_iff_right hne, mul_eq_zero, mul_eq_zero, mul_eq_zero, sub_eq_zero]

/-- C90: a circular orbit does not stay circular under J3, unless it is equatorial or critically inclined. -/
theorem C90_j3_circular (hacc : IsField j3_acc args acc) (hJ : args "J3" = some J) (he : e = 0) :
    intV 0 (orb_period (p / (1 - e ^ 2)) mu) (fun t =>
      (1 / mu) • (V3.cross (acc (exactProp (coe2rv p e i Ω ω f0 mu).1 (coe2rv p e i Ω ω f0 mu).2 mu t).1)
          (angular_momentum (exactProp (coe2rv p e i Ω ω f0 mu).1 (coe2rv p e i Ω ω f0 mu).2 mu t).1
            (exactProp (coe2rv p e i Ω ω f0 mu).1 (coe2rv p e i Ω ω f0 mu).2 mu t).2)
        + V3.cross (exactProp (coe2rv p e i Ω ω f0 mu).1 (coe2rv p e i Ω ω f0 mu).2 mu t).2
          (V3.cross (exactProp (coe2rv p e i Ω ω f0 mu).1 (coe2rv p e i Ω ω f0 mu).2 mu t).1
            (acc (exactProp (coe2rv p e i Ω ω f0 mu).1 (coe2rv p e i Ω ω f0 mu).2 mu t).1))))
    = (3 / 4 * Real.pi * J * (R / p) ^ 3 * Real.sin i * (1 - 5 * Real.cos i ^ 2)) • nodeDir Ω := by
  have h := C90_j3_eccentricity hp h0 h1 hmu i Ω ω f0 hm hR hacc hJ
  simp only at h
  rw [h]
  have h2 := Real.sin_sq_add_cos_sq i
  subst he
  ext <;> simp only [add_x, add_y, add_z, smul_x, smul_y, smul_z]
  · linear_combination (Real.pi * J * (R / p) ^ 3 * (nodeDir Ω).x * Real.sin i * (15 / 4)) * h2
  · linear_combination (Real.pi * J * (R / p) ^ 3 * (nodeDir Ω).y * Real.sin i * (15 / 4)) * h2
  · linear_combination (Real.pi * J * (R / p) ^ 3 * (nodeDir Ω).z * Real.sin i * (15 / 4)) * h2

end

/-- Non-vacuity: elements, arguments and fields as asked for. -/
example : ∃ (args : Args ℝ) (acc3 acc4 : V3 ℝ → V3 ℝ), IsField j3_acc args acc3 ∧ IsField j4_acc args acc4 ∧ args "mu" = some 1 ∧
    args "J3" = some 1 ∧ args "J4" = some 1 ∧ args "R_eq" = some 1 ∧ acc3 ⟨1, 0, 0⟩ ≠ ⟨0, 0, 0⟩ := by
  refine ⟨fun _ => some 1, fun q => (match j3_acc 0 ⟨q, []⟩ (fun _ => some (1 : ℝ)) with | .ok a => a | .error _ => q),
    fun q => (match j4_acc 0 ⟨q, []⟩ (fun _ => some (1 : ℝ)) with | .ok a => a | .error _ => q), fun t rest q => rfl, fun t rest q => rfl,
    rfl, rfl, rfl, rfl, ?_⟩
  intro h
  have := congrArg V3.z h
  norm_num [j3_acc, Args.get, bind, Except.bind, pure, Except.pure, V3.norm, V3.dot] at this

end Adx
