import Verif.Model.UniFormulas
import Verif.Model.OrbIntegrals
import Verif.Model.While

/-! # Model of `src/astrodynx/twobody/_kep_equ.py` -/

namespace Adx
variable {α : Type} [Add α] [Sub α] [Neg α] [Mul α] [Div α] [Pow α ℕ] [NatCast α] [JFun α]

/-- `kepler_equ_elps`, _kep_equ.py:51: `E - e * jnp.sin(E) - M`. -/
def kepler_equ_elps (E e : α) (M : α := ℓ 0) : α := E - e * JFun.sin E - M

/-- `dE`, _kep_equ.py:71: `1 - e * jnp.cos(E)`. -/
def dE (E e : α) : α := ℓ 1 - e * JFun.cos E

/-- `kepler_equ_hypb`, _kep_equ.py:114: `e * jnp.sinh(H) - H - N`. -/
def kepler_equ_hypb (H e : α) (N : α := ℓ 0) : α := e * JFun.sinh H - H - N

/-- `dH`, _kep_equ.py:134: `e * jnp.cosh(H) - 1`. -/
def dH (H e : α) : α := e * JFun.cosh H - ℓ 1

/-- `mean_anomaly_elps`, _kep_equ.py:177: `jnp.sqrt(mu / a**3) * deltat`. -/
def mean_anomaly_elps (a deltat : α) (mu : α := ℓ 1) : α := JFun.sqrt (mu / a ^ 3) * deltat

/-- `mean_anomaly_hypb`, _kep_equ.py:220: `jnp.sqrt(mu / -(a**3)) * deltat`. -/
def mean_anomaly_hypb (a deltat : α) (mu : α := ℓ 1) : α := JFun.sqrt (mu / -(a ^ 3)) * deltat

/-- `kepler_equ_uni`, _kep_equ.py:279-284. -/
def kepler_equ_uni (chi : α) (alpha : α := ℓ 1) (r0 : α := ℓ 1) (sigma0 : α := ℓ 0)
    (deltat : α := ℓ 0) (mu : α := ℓ 1) : α :=
  r0 * ufunc1 chi alpha + sigma0 * ufunc2 chi alpha + ufunc3 chi alpha - JFun.sqrt mu * deltat

/-- `dchi`, _kep_equ.py:287-290. -/
def dchi (chi alpha r0 sigma0 : α) : α :=
  equ_of_orb_uvi (ufunc0 chi alpha) (ufunc1 chi alpha) (ufunc2 chi alpha) r0 sigma0

/-- `generalized_anomaly`, _kep_equ.py:345: `alpha * jnp.sqrt(mu) * deltat + sigma - sigma0`. -/
def generalized_anomaly (alpha sigma sigma0 : α) (deltat : α := ℓ 0) (mu : α := ℓ 1) : α :=
  alpha * JFun.sqrt mu * deltat + sigma - sigma0

/-- The default tolerance `1e-6` of the three solvers, _kep_equ.py:349, 401, 457. -/
def defaultTol : α := ℓ 1 / ℓ 1000000

/-- The carry `(iter_count, E, E_prev)` of the solver loops, _kep_equ.py:384, 436, 503. -/
abbrev Carry (α : Type) := ℕ × α × α

/-- `E0` in `solve_kepler_elps`, _kep_equ.py:382:
`M + e * jnp.sin(M) + e**2 * jnp.sin(2 * M) / 2`. -/
def elpsStart (M e : α) : α := M + e * JFun.sin M + e ^ 2 * JFun.sin (ℓ 2 * M) / ℓ 2

/-- `cond_fn` of `solve_kepler_elps`, _kep_equ.py:384-388:
`(jnp.abs(E - E_prev) > tol) & (iter_count < max_iter)`. -/
def elpsCond (tol : α) (max_iter : ℕ) (val : Carry α) : Bool :=
  JFun.lt tol (JFun.abs (val.2.1 - val.2.2)) && decide (val.1 < max_iter)

/-- `body_fn` of `solve_kepler_elps`, _kep_equ.py:390-394. -/
def elpsBody (M e : α) (val : Carry α) : Carry α :=
  let E := val.2.1
  let f := E - e * JFun.sin E - M
  let E_new := E - f / dE E e
  (val.1 + 1, E_new, E)

/-- The `lax.while_loop` call of `solve_kepler_elps`, _kep_equ.py:396: the final carry. -/
def elpsRun (M e tol : α) (max_iter : ℕ) : Option (Carry α) :=
  let E0 := elpsStart M e
  whileLoop (elpsCond tol max_iter) (elpsBody M e) (0, E0, E0 + ℓ 2 * tol)

/-- `solve_kepler_elps`, _kep_equ.py:348-397; `none` would be a loop that never returns.
Simplification: `max_iter` is a natural number (a negative Python int behaves like 0). -/
def solve_kepler_elps (M e : α) (tol : α := defaultTol) (max_iter : ℕ := 20) : Option α :=
  (elpsRun M e tol max_iter).map (·.2.1)

/-- `H0` in `solve_kepler_hypb`, _kep_equ.py:434:
`jnp.log(2 * N / e + jnp.sqrt((2 * N / e) ** 2 + 1))`. -/
def hypbStart (N e : α) : α :=
  JFun.log (ℓ 2 * N / e + JFun.sqrt ((ℓ 2 * N / e) ^ 2 + ℓ 1))

/-- `cond_fn` of `solve_kepler_hypb`, _kep_equ.py:436-440. -/
def hypbCond (N e tol : α) (max_iter : ℕ) (val : Carry α) : Bool :=
  JFun.lt tol (JFun.abs (kepler_equ_hypb val.2.1 e N)) && decide (val.1 < max_iter)

/-- `body_fn` of `solve_kepler_hypb`, _kep_equ.py:442-445. -/
def hypbBody (N e : α) (val : Carry α) : Carry α :=
  let H := val.2.1
  let H_new := H - kepler_equ_hypb H e N / dH H e
  (val.1 + 1, H_new, H)

/-- The `lax.while_loop` call of `solve_kepler_hypb`, _kep_equ.py:447: the final carry. -/
def hypbRun (N e tol : α) (max_iter : ℕ) : Option (Carry α) :=
  let H0 := hypbStart N e
  whileLoop (hypbCond N e tol max_iter) (hypbBody N e) (0, H0, H0 + ℓ 2 * tol)

/-- `solve_kepler_hypb`, _kep_equ.py:400-448. -/
def solve_kepler_hypb (N e : α) (tol : α := defaultTol) (max_iter : ℕ := 50) : Option α :=
  (hypbRun N e tol max_iter).map (·.2.1)

/-- `chi0` in `solve_kepler_uni`, _kep_equ.py:501: `jnp.sqrt(mu) * jnp.abs(alpha) * deltat`. -/
def uniStart (deltat alpha mu : α) : α := JFun.sqrt mu * JFun.abs alpha * deltat

/-- `cond_fn` of `solve_kepler_uni`, _kep_equ.py:503-509. -/
def uniCond (deltat alpha r0 sigma0 mu tol : α) (max_iter : ℕ) (val : Carry α) : Bool :=
  JFun.lt tol (JFun.abs (kepler_equ_uni val.2.1 alpha r0 sigma0 deltat mu))
    && decide (val.1 < max_iter)

/-- `body_fn` of `solve_kepler_uni`, _kep_equ.py:511-516. -/
def uniBody (deltat alpha r0 sigma0 mu : α) (val : Carry α) : Carry α :=
  let chi := val.2.1
  let chi_new := chi - kepler_equ_uni chi alpha r0 sigma0 deltat mu / dchi chi alpha r0 sigma0
  (val.1 + 1, chi_new, chi)

/-- The initial carry of `solve_kepler_uni`, _kep_equ.py:501, 518. -/
def uniInit (deltat alpha mu tol : α) : Carry α :=
  let chi0 := uniStart deltat alpha mu
  (0, chi0, chi0 + ℓ 2 * tol)

/-- The `lax.while_loop` call of `solve_kepler_uni`, _kep_equ.py:518: the final carry. -/
def uniRun (deltat alpha r0 sigma0 mu tol : α) (max_iter : ℕ) : Option (Carry α) :=
  whileLoop (uniCond deltat alpha r0 sigma0 mu tol max_iter)
    (uniBody deltat alpha r0 sigma0 mu) (uniInit deltat alpha mu tol)

/-- `solve_kepler_uni`, _kep_equ.py:451-519. -/
def solve_kepler_uni (deltat alpha r0 sigma0 : α) (mu : α := ℓ 1) (tol : α := defaultTol)
    (max_iter : ℕ := 50) : Option α :=
  (uniRun deltat alpha r0 sigma0 mu tol max_iter).map (·.2.1)

end Adx
