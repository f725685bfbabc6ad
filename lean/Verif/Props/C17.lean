import Verif.Lemmas.KepReal
import Verif.Props.C13
import Mathlib.Analysis.SpecialFunctions.Arsinh

/-! # C17: symmetries of the solvers in exact arithmetic

They hold for the loop as written, for every tolerance and iteration limit, converged or not. -/

namespace Adx

theorem hypbStart_eq (N e : ℝ) : hypbStart N e = Real.arsinh (2 * N / e) := by
  simp only [hypbStart, Real.arsinh, log_real, sqrt_real, Nat.cast_ofNat, Nat.cast_one]
  rw [add_comm _ (1 : ℝ)]

/-- C17: `solve_kepler_elps` is odd in `M`. -/
theorem C17_elps_odd (M e tol : ℝ) (max_iter : ℕ) :
    solve_kepler_elps (-M) e tol max_iter = (solve_kepler_elps M e tol max_iter).map fun E => -E := by
  obtain ⟨k, -, hr, hs, -⟩ := C13_elps M e tol max_iter
  have hstart : elpsStart (-M) e = -elpsStart M e := by
    simp only [elpsStart, sin_real, Nat.cast_ofNat, mul_neg, Real.sin_neg]; ring
  obtain ⟨t', h1, h2⟩ := whileLoop_simulate
    (c2 := elpsCond tol max_iter) (b2 := elpsBody (-M) e)
    (R := fun (s t : Carry ℝ) => t.1 = s.1 ∧ t.2.1 = -s.2.1 ∧ |t.2.1 - t.2.2| = |s.2.1 - s.2.2|)
    (fun s t ⟨h1, h2, h3⟩ => by
      simp only [elpsCond, abs_real, h1, h3])
    (fun s t ⟨h1, h2, h3⟩ => by
      have hx : ∀ x : ℝ, -x - (-x - e * Real.sin (-x) - -M) / (1 - e * Real.cos (-x))
          = -(x - (x - e * Real.sin x - M) / (1 - e * Real.cos x)) := by
        intro x; rw [Real.sin_neg, Real.cos_neg]; ring
      simp only [elpsBody, dE_eq, sin_real, h1, h2, true_and, hx]
      rw [show ∀ a b : ℝ, -a - -b = -(a - b) by intros; ring, abs_neg])
    (t := (0, elpsStart (-M) e, elpsStart (-M) e + 2 * tol))
    (by
      refine ⟨rfl, hstart, ?_⟩
      simp only [Nat.cast_ofNat, sub_add_cancel_left]) hr
  have h3 : elpsRun (-M) e tol max_iter = some t' := by
    simp only [elpsRun, Nat.cast_ofNat]; exact h1
  simp only [solve_kepler_elps, h3, hr, Option.map_some, h2.2.1]

/-- C17: `solve_kepler_elps` commutes with adding whole turns to `M`. -/
theorem C17_elps_periodic (M e tol : ℝ) (max_iter : ℕ) (k : ℤ) :
    solve_kepler_elps (M + 2 * Real.pi * k) e tol max_iter
      = (solve_kepler_elps M e tol max_iter).map fun E => E + 2 * Real.pi * k := by
  obtain ⟨n, -, hr, hs, -⟩ := C13_elps M e tol max_iter
  have hsin : ∀ x : ℝ, Real.sin (x + 2 * Real.pi * k) = Real.sin x := fun x => by
    rw [mul_comm (2 * Real.pi)]; exact Real.sin_add_int_mul_two_pi x k
  have hcos : ∀ x : ℝ, Real.cos (x + 2 * Real.pi * k) = Real.cos x := fun x => by
    rw [mul_comm (2 * Real.pi)]; exact Real.cos_add_int_mul_two_pi x k
  have hstart : elpsStart (M + 2 * Real.pi * k) e = elpsStart M e + 2 * Real.pi * k := by
    have h2 : Real.sin (2 * (M + 2 * Real.pi * k)) = Real.sin (2 * M) := by
      rw [show 2 * (M + 2 * Real.pi * k) = 2 * M + ((2 * k : ℤ) : ℝ) * (2 * Real.pi) by push_cast; ring]
      exact Real.sin_add_int_mul_two_pi _ _
    simp only [elpsStart, sin_real, Nat.cast_ofNat, hsin, h2]; ring
  obtain ⟨t', h1, h2⟩ := whileLoop_simulate
    (c2 := elpsCond tol max_iter) (b2 := elpsBody (M + 2 * Real.pi * k) e)
    (R := fun (s t : Carry ℝ) => t.1 = s.1 ∧ t.2.1 = s.2.1 + 2 * Real.pi * k ∧
      t.2.2 = s.2.2 + 2 * Real.pi * k)
    (fun s t ⟨h1, h2, h3⟩ => by
      simp only [elpsCond, h1, h2, h3, add_sub_add_right_eq_sub])
    (fun s t ⟨h1, h2, h3⟩ => by
      simp only [elpsBody, dE_eq, sin_real, h1, h2, true_and, hsin, hcos, and_true]
      ring)
    (t := (0, elpsStart (M + 2 * Real.pi * k) e, elpsStart (M + 2 * Real.pi * k) e + 2 * tol))
    (by
      refine ⟨rfl, hstart, ?_⟩
      simp only [Nat.cast_ofNat, hstart]; ring) hr
  have h3 : elpsRun (M + 2 * Real.pi * k) e tol max_iter = some t' := by
    simp only [elpsRun, Nat.cast_ofNat]; exact h1
  simp only [solve_kepler_elps, h3, hr, Option.map_some, h2.2.1]

/-- C17: `solve_kepler_hypb` is odd in `N`. -/
theorem C17_hypb_odd (N e tol : ℝ) (max_iter : ℕ) :
    solve_kepler_hypb (-N) e tol max_iter = (solve_kepler_hypb N e tol max_iter).map fun H => -H := by
  obtain ⟨k, -, hr, hs, -⟩ := C13_hypb N e tol max_iter
  have hstart : hypbStart (-N) e = -hypbStart N e := by
    rw [hypbStart_eq, hypbStart_eq, ← Real.arsinh_neg]; congr 1; ring
  have hres : ∀ x : ℝ, kepler_equ_hypb (-x) e (-N) = -kepler_equ_hypb x e N := fun x => by
    rw [kep_hypb_eq, kep_hypb_eq, Real.sinh_neg]; ring
  obtain ⟨t', h1, h2⟩ := whileLoop_simulate
    (c2 := hypbCond (-N) e tol max_iter) (b2 := hypbBody (-N) e)
    (R := fun (s t : Carry ℝ) => t.1 = s.1 ∧ t.2.1 = -s.2.1)
    (fun s t ⟨h1, h2⟩ => by
      simp only [hypbCond, abs_real, h1, h2, hres, abs_neg])
    (fun s t ⟨h1, h2⟩ => by
      simp only [hypbBody, dH_eq, h1, h2, hres, Real.cosh_neg, true_and]
      ring)
    (t := (0, hypbStart (-N) e, hypbStart (-N) e + 2 * tol))
    (by exact ⟨rfl, hstart⟩) hr
  have h3 : hypbRun (-N) e tol max_iter = some t' := by
    simp only [hypbRun, Nat.cast_ofNat]; exact h1
  simp only [solve_kepler_hypb, h3, hr, Option.map_some, h2.2]

/-- C17: time reversal of the universal solver. -/
theorem C17_uni_reversal (t α r0 σ0 mu tol : ℝ) (max_iter : ℕ) :
    solve_kepler_uni (-t) α r0 (-σ0) mu tol max_iter
      = (solve_kepler_uni t α r0 σ0 mu tol max_iter).map fun χ => -χ := by
  obtain ⟨k, -, hr, hs, -⟩ := C13_uni t α r0 σ0 mu tol max_iter
  have hstart : uniStart (-t) α mu = -uniStart t α mu := by
    simp only [uniStart, sqrt_real, abs_real]; ring
  have hres : ∀ x : ℝ, kepler_equ_uni (-x) α r0 (-σ0) (-t) mu = -kepler_equ_uni x α r0 σ0 t mu :=
    fun x => by
      obtain ⟨-, h1, h2, h3, -⟩ := C08_parity x α
      simp only [kepler_equ_uni, h1, h2, h3, sqrt_real]; ring
  have hd : ∀ x : ℝ, dchi (-x) α r0 (-σ0) = dchi x α r0 σ0 := fun x => by
    obtain ⟨h0, h1, h2, h3, -⟩ := C08_parity x α
    simp only [dchi, equ_of_orb_uvi, h0, h1, h2]; ring
  obtain ⟨t', h1, h2⟩ := whileLoop_simulate
    (c2 := uniCond (-t) α r0 (-σ0) mu tol max_iter) (b2 := uniBody (-t) α r0 (-σ0) mu)
    (R := fun (s t : Carry ℝ) => t.1 = s.1 ∧ t.2.1 = -s.2.1)
    (fun s t ⟨h1, h2⟩ => by
      simp only [uniCond, abs_real, h1, h2, hres, abs_neg])
    (fun s t ⟨h1, h2⟩ => by
      simp only [uniBody, hd, h1, h2, hres, true_and]
      ring)
    (t := uniInit (-t) α mu tol)
    (by exact ⟨rfl, hstart⟩) hr
  have h3 : uniRun (-t) α r0 (-σ0) mu tol max_iter = some t' := h1
  simp only [solve_kepler_uni, h3, hr, Option.map_some, h2.2]

/-- Not vacuous: with `e = 1/2`, `M = π`, the value is `π`, so `-π` and `5π` for `-M` and `M + 4π`. -/
example : solve_kepler_elps (Real.pi + 2 * Real.pi * (2 : ℤ)) (1 / 2) 1 0
    = some (Real.pi + 2 * Real.pi * (2 : ℤ)) := by
  rw [C17_elps_periodic, (C13_max_iter_zero Real.pi (1 / 2) 1 0 0 0 0 0).1]
  simp [elpsStart]

end Adx
