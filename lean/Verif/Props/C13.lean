import Verif.Model.Kepler
import Verif.Lemmas.While

/-! # C13: the root searches always return, in any arithmetic

Nothing is assumed of `α`: the statements hold for float32 including NaN, infinities and rounding.
The specification speaks about plain Newton iteration `N^[k]` from the documented starting value.
-/

set_option linter.unusedSectionVars false

namespace Adx
variable {α : Type} [Add α] [Sub α] [Neg α] [Mul α] [Div α] [Pow α ℕ] [NatCast α] [JFun α]

/-- One Newton step on the elliptic Kepler equation. -/
def newtonElps (M e E : α) : α := E - kepler_equ_elps E e M / dE E e
/-- One Newton step on the hyperbolic Kepler equation. -/
def newtonHypb (N e H : α) : α := H - kepler_equ_hypb H e N / dH H e
/-- One Newton step on the universal Kepler equation. -/
def newtonUni (deltat alpha r0 sigma0 mu chi : α) : α :=
  chi - kepler_equ_uni chi alpha r0 sigma0 deltat mu / dchi chi alpha r0 sigma0

/-- C13, elliptic: the loop ends after `k ≤ max_iter` steps with the `k`-th Newton iterate and the one
before it (the zeroth "previous value" being `E0 + 2 tol`); at every earlier iterate the step size was
above `tol`; and if `k < max_iter` the last step was not above `tol`. -/
theorem C13_elps (M e tol : α) (max_iter : ℕ) :
    ∃ k ≤ max_iter,
      elpsRun M e tol max_iter = some (k, (newtonElps M e)^[k] (elpsStart M e),
        prevOf (newtonElps M e) (elpsStart M e) (elpsStart M e + ℓ 2 * tol) k) ∧
      solve_kepler_elps M e tol max_iter = some ((newtonElps M e)^[k] (elpsStart M e)) ∧
      (∀ j < k, JFun.lt tol (JFun.abs ((newtonElps M e)^[j] (elpsStart M e)
        - prevOf (newtonElps M e) (elpsStart M e) (elpsStart M e + ℓ 2 * tol) j)) = true) ∧
      (k < max_iter → JFun.lt tol (JFun.abs ((newtonElps M e)^[k] (elpsStart M e)
        - prevOf (newtonElps M e) (elpsStart M e) (elpsStart M e + ℓ 2 * tol) k)) = false) := by
  obtain ⟨k, hk, h, h1, h2⟩ := newton_loop (newtonElps M e)
    (fun x y => JFun.lt tol (JFun.abs (x - y))) max_iter (elpsStart M e) (elpsStart M e + ℓ 2 * tol)
  have h' : elpsRun M e tol max_iter = _ := h
  exact ⟨k, hk, h', by simp only [solve_kepler_elps, h', Option.map_some], h1, h2⟩

/-- C13, hyperbolic: as above, with the residual as the stopping test. -/
theorem C13_hypb (N e tol : α) (max_iter : ℕ) :
    ∃ k ≤ max_iter,
      hypbRun N e tol max_iter = some (k, (newtonHypb N e)^[k] (hypbStart N e),
        prevOf (newtonHypb N e) (hypbStart N e) (hypbStart N e + ℓ 2 * tol) k) ∧
      solve_kepler_hypb N e tol max_iter = some ((newtonHypb N e)^[k] (hypbStart N e)) ∧
      (∀ j < k, JFun.lt tol (JFun.abs
        (kepler_equ_hypb ((newtonHypb N e)^[j] (hypbStart N e)) e N)) = true) ∧
      (k < max_iter → JFun.lt tol (JFun.abs
        (kepler_equ_hypb ((newtonHypb N e)^[k] (hypbStart N e)) e N)) = false) := by
  obtain ⟨k, hk, h, h1, h2⟩ := newton_loop (newtonHypb N e)
    (fun x _ => JFun.lt tol (JFun.abs (kepler_equ_hypb x e N))) max_iter (hypbStart N e)
    (hypbStart N e + ℓ 2 * tol)
  have h' : hypbRun N e tol max_iter = _ := h
  exact ⟨k, hk, h', by simp only [solve_kepler_hypb, h', Option.map_some], h1, h2⟩

/-- C13, universal. -/
theorem C13_uni (deltat alpha r0 sigma0 mu tol : α) (max_iter : ℕ) :
    ∃ k ≤ max_iter,
      uniRun deltat alpha r0 sigma0 mu tol max_iter
        = some (k, (newtonUni deltat alpha r0 sigma0 mu)^[k] (uniStart deltat alpha mu),
          prevOf (newtonUni deltat alpha r0 sigma0 mu) (uniStart deltat alpha mu)
            (uniStart deltat alpha mu + ℓ 2 * tol) k) ∧
      solve_kepler_uni deltat alpha r0 sigma0 mu tol max_iter
        = some ((newtonUni deltat alpha r0 sigma0 mu)^[k] (uniStart deltat alpha mu)) ∧
      (∀ j < k, JFun.lt tol (JFun.abs (kepler_equ_uni
        ((newtonUni deltat alpha r0 sigma0 mu)^[j] (uniStart deltat alpha mu))
        alpha r0 sigma0 deltat mu)) = true) ∧
      (k < max_iter → JFun.lt tol (JFun.abs (kepler_equ_uni
        ((newtonUni deltat alpha r0 sigma0 mu)^[k] (uniStart deltat alpha mu))
        alpha r0 sigma0 deltat mu)) = false) := by
  obtain ⟨k, hk, h, h1, h2⟩ := newton_loop (newtonUni deltat alpha r0 sigma0 mu)
    (fun x _ => JFun.lt tol (JFun.abs (kepler_equ_uni x alpha r0 sigma0 deltat mu))) max_iter
    (uniStart deltat alpha mu) (uniStart deltat alpha mu + ℓ 2 * tol)
  have h' : uniRun deltat alpha r0 sigma0 mu tol max_iter = _ := h
  exact ⟨k, hk, h', by simp only [solve_kepler_uni, h', Option.map_some], h1, h2⟩

/-- C13: the three solvers never hang. -/
theorem C13_total (M e tol deltat alpha r0 sigma0 mu : α) (max_iter : ℕ) :
    (solve_kepler_elps M e tol max_iter).isSome ∧ (solve_kepler_hypb M e tol max_iter).isSome ∧
      (solve_kepler_uni deltat alpha r0 sigma0 mu tol max_iter).isSome := by
  obtain ⟨_, _, _, h1, _⟩ := C13_elps M e tol max_iter
  obtain ⟨_, _, _, h2, _⟩ := C13_hypb M e tol max_iter
  obtain ⟨_, _, _, h3, _⟩ := C13_uni deltat alpha r0 sigma0 mu tol max_iter
  simp [h1, h2, h3]

/-- C13: a test that is never true (as with a NaN residual, where every comparison is false) returns
the starting value unchanged. -/
theorem C13_test_false_returns_start (deltat alpha r0 sigma0 mu tol : α) (max_iter : ℕ)
    (h : JFun.lt tol (JFun.abs (kepler_equ_uni (uniStart deltat alpha mu) alpha r0 sigma0 deltat mu))
      = false) :
    solve_kepler_uni deltat alpha r0 sigma0 mu tol max_iter = some (uniStart deltat alpha mu) := by
  obtain ⟨k, _, _, h1, h2, _⟩ := C13_uni deltat alpha r0 sigma0 mu tol max_iter
  rcases k with _ | k
  · exact h1
  · have := h2 0 (by omega)
    simp only [Function.iterate_zero, id_eq] at this
    rw [h] at this; cases this

/-- C13: `max_iter = 0` returns the starting value. -/
theorem C13_max_iter_zero (M e tol deltat alpha r0 sigma0 mu : α) :
    solve_kepler_elps M e tol 0 = some (elpsStart M e) ∧
    solve_kepler_hypb M e tol 0 = some (hypbStart M e) ∧
    solve_kepler_uni deltat alpha r0 sigma0 mu tol 0 = some (uniStart deltat alpha mu) := by
  obtain ⟨k1, hk1, _, h1, _⟩ := C13_elps M e tol 0
  obtain ⟨k2, hk2, _, h2, _⟩ := C13_hypb M e tol 0
  obtain ⟨k3, hk3, _, h3, _⟩ := C13_uni deltat alpha r0 sigma0 mu tol 0
  obtain rfl : k1 = 0 := by omega
  obtain rfl : k2 = 0 := by omega
  obtain rfl : k3 = 0 := by omega
  exact ⟨h1, h2, h3⟩

end Adx
