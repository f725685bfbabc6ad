import Verif.Lemmas.Broadcast
import Verif.Model.OrbIntegrals
import Verif.Model.KepEqu
import Verif.Model.Lagrange
import Verif.Model.StateTrans
import Verif.Model.PathCheck

/-! # C50: broadcasting is element-wise

The model definitions read with `α := Arr β` (arrays with broadcasting) are compared with the same
definitions on scalars. Nothing is assumed of the scalar arithmetic `β`.
-/

set_option linter.unusedSectionVars false

namespace Adx
open Spec

variable {β : Type} [Add β] [Sub β] [Neg β] [Mul β] [Div β] [Pow β ℕ] [NatCast β] [JFun β]

/-- The array function `F` of `n` arguments is the scalar function `f` applied element by element:
* if the shapes of the arguments have a broadcast shape, the result is an array of that shape whose
  entry at each index is `f` of the corresponding entries of the arguments;
* if they have none, the call raises. -/
def Elementwise (n : ℕ) (F : (Fin n → Arr β) → Arr β) (f : (Fin n → β) → β) : Prop :=
  ∀ args : Fin n → ND β,
    (∀ s, IsBroadcast (List.ofFn fun i => (args i).shape) s →
      ∃ R : ND β, F (fun i => .ok (args i)) = .ok R ∧ R.shape = s ∧
        ∀ idx, InShape s idx → R.get idx = f fun i => (args i).get (operandIdx (args i).shape idx)) ∧
    ((¬ ∃ s, IsBroadcast (List.ofFn fun i => (args i).shape) s) →
      ∃ e, F (fun i => .ok (args i)) = .error e)

theorem elementwise_of {n : ℕ} {F : (Fin n → Arr β) → Arr β} {f : (Fin n → β) → β}
    {V : List (Fin n)} (h : ∀ env : Fin n → ND β, Elem env V (F fun i => .ok (env i)) f)
    (hV : ∀ i, i ∈ V) : Elementwise n F f := by
  intro args
  have hE := (h args).congr (W := List.finRange n) (fun i => by simp [hV i])
  have e : (List.finRange n).map (fun i => (args i).shape) = List.ofFn fun i => (args i).shape := by
    rw [List.ofFn_eq_map]
  refine ⟨fun s hs => hE.ok s (by rw [e]; exact hs), fun hn => hE.err (by rw [e]; exact hn)⟩

namespace Elem
variable {ι : Type} {env : ι → ND β} {V W : List ι} {x y : Arr β} {g h : (ι → β) → β}
theorem lit (n : ℕ) : Elem env [] ((n : ℕ) : Arr β) (fun _ => (n : β)) := Elem.scalar _
theorem pi : Elem env [] (JFun.pi : Arr β) (fun _ => JFun.pi) := Elem.scalar _
theorem add (a : Elem env V x g) (b : Elem env W y h) :
    Elem env (V ++ W) (x + y) (fun ρ => g ρ + h ρ) := Elem.bin _ a b
theorem sub (a : Elem env V x g) (b : Elem env W y h) :
    Elem env (V ++ W) (x - y) (fun ρ => g ρ - h ρ) := Elem.bin _ a b
theorem mul (a : Elem env V x g) (b : Elem env W y h) :
    Elem env (V ++ W) (x * y) (fun ρ => g ρ * h ρ) := Elem.bin _ a b
theorem div (a : Elem env V x g) (b : Elem env W y h) :
    Elem env (V ++ W) (x / y) (fun ρ => g ρ / h ρ) := Elem.bin _ a b
theorem max (a : Elem env V x g) (b : Elem env W y h) :
    Elem env (V ++ W) (JFun.maximum x y) (fun ρ => JFun.maximum (g ρ) (h ρ)) := Elem.bin _ a b
theorem neg (a : Elem env V x g) : Elem env V (-x) (fun ρ => -g ρ) := Elem.un _ a
theorem pow (a : Elem env V x g) (n : ℕ) : Elem env V (x ^ n) (fun ρ => g ρ ^ n) := Elem.un _ a
theorem sqrt (a : Elem env V x g) : Elem env V (JFun.sqrt x) (fun ρ => JFun.sqrt (g ρ)) := Elem.un _ a
theorem cbrt (a : Elem env V x g) : Elem env V (JFun.cbrt x) (fun ρ => JFun.cbrt (g ρ)) := Elem.un _ a
theorem sin (a : Elem env V x g) : Elem env V (JFun.sin x) (fun ρ => JFun.sin (g ρ)) := Elem.un _ a
theorem cos (a : Elem env V x g) : Elem env V (JFun.cos x) (fun ρ => JFun.cos (g ρ)) := Elem.un _ a
theorem sinh (a : Elem env V x g) : Elem env V (JFun.sinh x) (fun ρ => JFun.sinh (g ρ)) := Elem.un _ a
theorem cosh (a : Elem env V x g) : Elem env V (JFun.cosh x) (fun ρ => JFun.cosh (g ρ)) := Elem.un _ a
theorem log (a : Elem env V x g) : Elem env V (JFun.log x) (fun ρ => JFun.log (g ρ)) := Elem.un _ a
theorem floor (a : Elem env V x g) : Elem env V (JFun.floor x) (fun ρ => JFun.floor (g ρ)) := Elem.un _ a
end Elem

open Elem

/-! ### `_orb_integrals.py` -/

/-- C50: `orb_period(a, mu)`. -/
theorem C50_orb_period : Elementwise (β := β) 2 (fun x => orb_period (x 0) (x 1)) (fun y => orb_period (y 0) (y 1)) :=
  elementwise_of (fun _ => ((lit 2).mul pi).mul (((var 0).pow 3).div (var 1)).sqrt) (by decide)

/-- C50: `a_from_period(orbperiod, mu)`. -/
theorem C50_a_from_period : Elementwise (β := β) 2 (fun x => a_from_period (x 0) (x 1)) (fun y => a_from_period (y 0) (y 1)) :=
  elementwise_of (fun _ => (((((var 0).pow 2).mul (var 1)).div (lit 4)).div (pi.pow 2)).cbrt) (by decide)

/-- C50: `semimajor_axis(r_mag, v_mag, mu)`. -/
theorem C50_semimajor_axis : Elementwise (β := β) 3 (fun x => semimajor_axis (x 0) (x 1) (x 2))
    (fun y => semimajor_axis (y 0) (y 1) (y 2)) :=
  elementwise_of (fun _ => (lit 1).div (((lit 2).div (var 0)).sub (((var 1).pow 2).div (var 2)))) (by decide)

/-- C50: `semiparameter(h_mag, mu)`. -/
theorem C50_semiparameter : Elementwise (β := β) 2 (fun x => semiparameter (x 0) (x 1)) (fun y => semiparameter (y 0) (y 1)) :=
  elementwise_of (fun _ => ((var 0).pow 2).div (var 1)) (by decide)

/-- C50: `mean_motion(P)`. -/
theorem C50_mean_motion : Elementwise (β := β) 1 (fun x => mean_motion (x 0)) (fun y => mean_motion (y 0)) :=
  elementwise_of (fun _ => ((lit 2).mul pi).div (var 0)) (by decide)

/-- C50: `equ_of_orbit(p, e, f)`. -/
theorem C50_equ_of_orbit : Elementwise (β := β) 3 (fun x => equ_of_orbit (x 0) (x 1) (x 2))
    (fun y => equ_of_orbit (y 0) (y 1) (y 2)) :=
  elementwise_of (fun _ => (var 0).div ((lit 1).add ((var 1).mul (var 2).cos))) (by decide)

/-- C50: `equ_of_orb_uvi(U0, U1, U2, r0, sigma0)`. -/
theorem C50_equ_of_orb_uvi : Elementwise (β := β) 5 (fun x => equ_of_orb_uvi (x 0) (x 1) (x 2) (x 3) (x 4))
    (fun y => equ_of_orb_uvi (y 0) (y 1) (y 2) (y 3) (y 4)) :=
  elementwise_of (fun _ => (((var 3).mul (var 0)).add ((var 4).mul (var 1))).add (var 2)) (by decide)

/-- C50: `radius_periapsis(p, e)`. -/
theorem C50_radius_periapsis : Elementwise (β := β) 2 (fun x => radius_periapsis (x 0) (x 1))
    (fun y => radius_periapsis (y 0) (y 1)) :=
  elementwise_of (fun _ => (var 0).div ((lit 1).add (var 1))) (by decide)

/-- C50: `radius_apoapsis(p, e)`. -/
theorem C50_radius_apoapsis : Elementwise (β := β) 2 (fun x => radius_apoapsis (x 0) (x 1))
    (fun y => radius_apoapsis (y 0) (y 1)) :=
  elementwise_of (fun _ => (var 0).div ((lit 1).sub (var 1))) (by decide)

/-- C50: `semipara_from_ae(a, e)`. -/
theorem C50_semipara_from_ae : Elementwise (β := β) 2 (fun x => semipara_from_ae (x 0) (x 1))
    (fun y => semipara_from_ae (y 0) (y 1)) :=
  elementwise_of (fun _ => (var 0).mul ((lit 1).sub ((var 1).pow 2))) (by decide)

/-- C50: `a_from_pe(p, e)`. -/
theorem C50_a_from_pe : Elementwise (β := β) 2 (fun x => a_from_pe (x 0) (x 1)) (fun y => a_from_pe (y 0) (y 1)) :=
  elementwise_of (fun _ => (var 0).div ((lit 1).sub ((var 1).pow 2))) (by decide)

/-! ### `_kep_equ.py` -/

/-- C50: `kepler_equ_elps(E, e, M)`. -/
theorem C50_kepler_equ_elps : Elementwise (β := β) 3 (fun x => kepler_equ_elps (x 0) (x 1) (x 2))
    (fun y => kepler_equ_elps (y 0) (y 1) (y 2)) :=
  elementwise_of (fun _ => ((var 0).sub ((var 1).mul (var 0).sin)).sub (var 2)) (by decide)

/-- C50: `dE(E, e)`. -/
theorem C50_dE : Elementwise (β := β) 2 (fun x => dE (x 0) (x 1)) (fun y => dE (y 0) (y 1)) :=
  elementwise_of (fun _ => (lit 1).sub ((var 1).mul (var 0).cos)) (by decide)

/-- C50: `kepler_equ_hypb(H, e, N)`. -/
theorem C50_kepler_equ_hypb : Elementwise (β := β) 3 (fun x => kepler_equ_hypb (x 0) (x 1) (x 2))
    (fun y => kepler_equ_hypb (y 0) (y 1) (y 2)) :=
  elementwise_of (fun _ => (((var 1).mul (var 0).sinh).sub (var 0)).sub (var 2)) (by decide)

/-- C50: `dH(H, e)`. -/
theorem C50_dH : Elementwise (β := β) 2 (fun x => dH (x 0) (x 1)) (fun y => dH (y 0) (y 1)) :=
  elementwise_of (fun _ => ((var 1).mul (var 0).cosh).sub (lit 1)) (by decide)

/-- C50: `mean_anomaly_elps(a, deltat, mu)`. -/
theorem C50_mean_anomaly_elps : Elementwise (β := β) 3 (fun x => mean_anomaly_elps (x 0) (x 1) (x 2))
    (fun y => mean_anomaly_elps (y 0) (y 1) (y 2)) :=
  elementwise_of (fun _ => (((var 2).div ((var 0).pow 3)).sqrt).mul (var 1)) (by decide)

/-- C50: `mean_anomaly_hypb(a, deltat, mu)`. -/
theorem C50_mean_anomaly_hypb : Elementwise (β := β) 3 (fun x => mean_anomaly_hypb (x 0) (x 1) (x 2))
    (fun y => mean_anomaly_hypb (y 0) (y 1) (y 2)) :=
  elementwise_of (fun _ => (((var 2).div ((var 0).pow 3).neg).sqrt).mul (var 1)) (by decide)

/-- C50: `generalized_anomaly(alpha, sigma, sigma0, deltat, mu)`. -/
theorem C50_generalized_anomaly : Elementwise (β := β) 5
    (fun x => generalized_anomaly (x 0) (x 1) (x 2) (x 3) (x 4))
    (fun y => generalized_anomaly (y 0) (y 1) (y 2) (y 3) (y 4)) :=
  elementwise_of (fun _ => ((((var 0).mul (var 4).sqrt).mul (var 3)).add (var 1)).sub (var 2)) (by decide)

/-- C50: the starting values of the two scalar solvers. -/
theorem C50_starts : Elementwise (β := β) 2 (fun x => elpsStart (x 0) (x 1)) (fun y => elpsStart (y 0) (y 1)) ∧
    Elementwise (β := β) 2 (fun x => hypbStart (x 0) (x 1)) (fun y => hypbStart (y 0) (y 1)) :=
  ⟨elementwise_of (fun _ => ((var 0).add ((var 1).mul (var 0).sin)).add
      ((((var 1).pow 2).mul ((lit 2).mul (var 0)).sin).div (lit 2))) (by decide),
   elementwise_of (fun _ => ((((lit 2).mul (var 0)).div (var 1)).add
      (((((lit 2).mul (var 0)).div (var 1)).pow 2).add (lit 1)).sqrt).log) (by decide)⟩

/-! ### `_lagrange.py`, `_state_trans.py`, `_path_check.py` -/

/-- C50: `lagrange_F(U2, r0_mag)`. -/
theorem C50_lagrange_F : Elementwise (β := β) 2 (fun x => lagrange_F (x 0) (x 1)) (fun y => lagrange_F (y 0) (y 1)) :=
  elementwise_of (fun _ => (lit 1).sub ((var 0).div (var 1))) (by decide)

/-- C50: `lagrange_G(U1, U2, sigma0, r0_mag, mu)`. -/
theorem C50_lagrange_G : Elementwise (β := β) 5 (fun x => lagrange_G (x 0) (x 1) (x 2) (x 3) (x 4))
    (fun y => lagrange_G (y 0) (y 1) (y 2) (y 3) (y 4)) :=
  elementwise_of (fun _ => (((var 3).mul (var 0)).add ((var 2).mul (var 1))).div (var 4).sqrt) (by decide)

/-- C50: `lagrange_Ft(U1, r_mag, r0_mag, mu)`. -/
theorem C50_lagrange_Ft : Elementwise (β := β) 4 (fun x => lagrange_Ft (x 0) (x 1) (x 2) (x 3))
    (fun y => lagrange_Ft (y 0) (y 1) (y 2) (y 3)) :=
  elementwise_of (fun _ => ((((var 3).sqrt.neg).div (var 1)).mul (var 0)).div (var 2)) (by decide)

/-- C50: `lagrange_Gt(U2, r_mag)`. -/
theorem C50_lagrange_Gt : Elementwise (β := β) 2 (fun x => lagrange_Gt (x 0) (x 1)) (fun y => lagrange_Gt (y 0) (y 1)) :=
  elementwise_of (fun _ => (lit 1).sub ((var 0).div (var 1))) (by decide)

/-- C50: `C_func(chi, U2, U4, U5, deltat, mu)`. -/
theorem C50_C_func : Elementwise (β := β) 6 (fun x => C_func (x 0) (x 1) (x 2) (x 3) (x 4) (x 5))
    (fun y => C_func (y 0) (y 1) (y 2) (y 3) (y 4) (y 5)) :=
  elementwise_of (fun _ => ((((lit 3).mul (var 3)).sub ((var 0).mul (var 2))).sub
    (((var 5).sqrt.mul (var 4)).mul (var 1))).div (var 5).sqrt) (by decide)

/-- C50: `nmax_by_periapsis(rp_min, r1, r2, tof, mu)`. -/
theorem C50_nmax_by_periapsis : Elementwise (β := β) 5
    (fun x => nmax_by_periapsis (x 0) (x 1) (x 2) (x 3) (x 4))
    (fun y => nmax_by_periapsis (y 0) (y 1) (y 2) (y 3) (y 4)) :=
  elementwise_of (fun _ => (((var 3).div ((lit 2).mul pi)).mul
    (((var 4).div ((((lit 1).div (lit 2)).mul (((var 1).max (var 2)).add (var 0))).pow 3)).sqrt)).floor)
    (by decide)

/-! ### `_uniformulas.py`: element-wise in `chi`, scalar `alpha`

`jax.lax.cond` needs a scalar predicate, so `alpha` is a scalar (documented type `DTypeLike`). -/

theorem Elem.ones {ι : Type} {env : ι → ND β} {V : List ι} {x : Arr β} {g : (ι → β) → β}
    (a : Elem env V x g) : Elem env V (JFun.onesLike x) (fun ρ => JFun.onesLike (g ρ)) := Elem.un _ a

/-- A two-way `lax.cond` on a scalar `alpha`. -/
theorem Elem.cond {ι : Type} {env : ι → ND β} {V : List ι} {x y z : Arr β} {g h k : (ι → β) → β}
    (a : β) (hx : Elem env V x g) (hy : Elem env V y h) (hz : Elem env V z k) :
    Elem env V
      (if JFun.lt (ℓ 0) (Arr.scalar a) then x else if JFun.lt (Arr.scalar a) (ℓ 0) then y else z)
      (fun ρ => if JFun.lt (ℓ 0) a then g ρ else if JFun.lt a (ℓ 0) then h ρ else k ρ) := by
  have e1 : JFun.lt (ℓ 0) (Arr.scalar a) = JFun.lt (ℓ 0) a := rfl
  have e2 : JFun.lt (Arr.scalar a) (ℓ 0) = JFun.lt a (ℓ 0) := rfl
  rw [e1, e2]
  split_ifs <;> assumption

section
variable {ι : Type} {env : ι → ND β} {V : List ι} {x : Arr β} {g : (ι → β) → β}

theorem Elem.ufunc0 (a : β) (c : Elem env V x g) :
    Elem env V (Adx.ufunc0 x (Arr.scalar a)) (fun ρ => Adx.ufunc0 (g ρ) a) :=
  Elem.cond a (((Elem.scalar a).sqrt.mul c).cos) (((Elem.scalar a).neg.sqrt.mul c).cosh) c.ones

theorem Elem.ufunc1 (a : β) (c : Elem env V x g) :
    Elem env V (Adx.ufunc1 x (Arr.scalar a)) (fun ρ => Adx.ufunc1 (g ρ) a) :=
  Elem.cond a
    (((((Elem.scalar a).sqrt.mul c).sin).div (Elem.scalar a).sqrt).congr (by simp))
    (((((Elem.scalar a).neg.sqrt.mul c).sinh).div (Elem.scalar a).neg.sqrt).congr (by simp)) c

theorem Elem.ufunc2 (a : β) (c : Elem env V x g) :
    Elem env V (Adx.ufunc2 x (Arr.scalar a)) (fun ρ => Adx.ufunc2 (g ρ) a) :=
  Elem.cond a
    ((((lit 1).sub ((Elem.scalar a).sqrt.mul c).cos).div (Elem.scalar a)).congr (by simp))
    ((((((Elem.scalar a).neg.sqrt.mul c).cosh).sub (lit 1)).div (Elem.scalar a).neg).congr (by simp))
    (((c.pow 2).div (lit 2)).congr (by simp))

theorem Elem.ufunc3 (a : β) (c : Elem env V x g) :
    Elem env V (Adx.ufunc3 x (Arr.scalar a)) (fun ρ => Adx.ufunc3 (g ρ) a) :=
  Elem.cond a
    ((((((Elem.scalar a).sqrt.mul c).sub ((Elem.scalar a).sqrt.mul c).sin).div (Elem.scalar a)).div
      (Elem.scalar a).sqrt).congr (by simp))
    ((((((Elem.scalar a).neg.sqrt.mul c).sub ((Elem.scalar a).neg.sqrt.mul c).sinh).div
      (Elem.scalar a)).div (Elem.scalar a).neg.sqrt).congr (by simp))
    (((c.pow 3).div (lit 6)).congr (by simp))

theorem Elem.ufunc4 (a : β) (c : Elem env V x g) :
    Elem env V (Adx.ufunc4 x (Arr.scalar a)) (fun ρ => Adx.ufunc4 (g ρ) a) :=
  Elem.cond a
    ((((((Elem.scalar a).mul (c.pow 2)).sub (lit 2)).add
      ((lit 2).mul ((Elem.scalar a).sqrt.mul c).cos)).div
      ((lit 2).mul ((Elem.scalar a).pow 2))).congr (by simp))
    ((((((Elem.scalar a).mul (c.pow 2)).sub (lit 2)).add
      ((lit 2).mul ((Elem.scalar a).neg.sqrt.mul c).cosh)).div
      ((lit 2).mul ((Elem.scalar a).pow 2))).congr (by simp))
    (((c.pow 4).div (lit 24)).congr (by simp))

theorem Elem.ufunc5 (a : β) (c : Elem env V x g) :
    Elem env V (Adx.ufunc5 x (Arr.scalar a)) (fun ρ => Adx.ufunc5 (g ρ) a) :=
  Elem.cond a
    (((((((Elem.scalar a).pow 2).mul (c.pow 3)).sub (((lit 6).mul (Elem.scalar a)).mul c)).add
      (((lit 6).mul (Elem.scalar a).sqrt).mul ((Elem.scalar a).sqrt.mul c).sin)).div
      ((lit 6).mul ((Elem.scalar a).pow 3))).congr (by simp))
    (((((((Elem.scalar a).pow 2).mul (c.pow 3)).sub (((lit 6).mul (Elem.scalar a)).mul c)).sub
      (((lit 6).mul (Elem.scalar a).neg.sqrt).mul ((Elem.scalar a).neg.sqrt.mul c).sinh)).div
      ((lit 6).mul ((Elem.scalar a).pow 3))).congr (by simp))
    (((c.pow 5).div (lit 120)).congr (by simp))
end

/-- C50: the universal functions act entry by entry on an array `chi` for a scalar `alpha` in every
regime; in the parabolic one `ufunc0` is an array of ones of the shape of `chi`. -/
theorem C50_ufunc (a : β) :
    Elementwise 1 (fun x => ufunc0 (x 0) (Arr.scalar a)) (fun y => ufunc0 (y 0) a) ∧
    Elementwise 1 (fun x => ufunc1 (x 0) (Arr.scalar a)) (fun y => ufunc1 (y 0) a) ∧
    Elementwise 1 (fun x => ufunc2 (x 0) (Arr.scalar a)) (fun y => ufunc2 (y 0) a) ∧
    Elementwise 1 (fun x => ufunc3 (x 0) (Arr.scalar a)) (fun y => ufunc3 (y 0) a) ∧
    Elementwise 1 (fun x => ufunc4 (x 0) (Arr.scalar a)) (fun y => ufunc4 (y 0) a) ∧
    Elementwise 1 (fun x => ufunc5 (x 0) (Arr.scalar a)) (fun y => ufunc5 (y 0) a) :=
  ⟨elementwise_of (fun _ => (var 0).ufunc0 a) (by decide),
   elementwise_of (fun _ => (var 0).ufunc1 a) (by decide),
   elementwise_of (fun _ => (var 0).ufunc2 a) (by decide),
   elementwise_of (fun _ => (var 0).ufunc3 a) (by decide),
   elementwise_of (fun _ => (var 0).ufunc4 a) (by decide),
   elementwise_of (fun _ => (var 0).ufunc5 a) (by decide)⟩

/-- C50: `kepler_equ_uni(chi, alpha, r0, sigma0, deltat, mu)`, scalar `alpha`. -/
theorem C50_kepler_equ_uni (a : β) : Elementwise 5
    (fun x => kepler_equ_uni (x 0) (Arr.scalar a) (x 1) (x 2) (x 3) (x 4))
    (fun y => kepler_equ_uni (y 0) a (y 1) (y 2) (y 3) (y 4)) :=
  elementwise_of (fun _ => ((((var 1).mul ((var 0).ufunc1 a)).add ((var 2).mul ((var 0).ufunc2 a))).add
    ((var 0).ufunc3 a)).sub ((var 4).sqrt.mul (var 3))) (by decide)

/-- C50: `dchi(chi, alpha, r0, sigma0)`, scalar `alpha`. -/
theorem C50_dchi (a : β) : Elementwise 3
    (fun x => dchi (x 0) (Arr.scalar a) (x 1) (x 2)) (fun y => dchi (y 0) a (y 1) (y 2)) :=
  elementwise_of (fun _ => (((var 1).mul ((var 0).ufunc0 a)).add ((var 2).mul ((var 0).ufunc1 a))).add
    ((var 0).ufunc2 a)) (by decide)

/-! ### the broadcasting rule itself -/

/-- C50: the model of `jnp.broadcast_shapes` is the specification. -/
theorem C50_broadcast_shape (s t u : List ℕ) : bshape s t = some u ↔ IsBroadcast [s, t] u :=
  ((isBroadcast_single s).append (isBroadcast_single t)).symm

/-! ### concrete cases -/

/-- Shapes `(2, 1)` and `(3,)` broadcast to `(2, 3)`. -/
example : IsBroadcast [[2, 1], [3]] [2, 3] := (C50_broadcast_shape _ _ _).1 (by decide)

/-- Shapes `(2,)` and `(3,)` do not broadcast. -/
example : ¬ ∃ s, IsBroadcast [[2], [3]] s := by
  rintro ⟨s, hs⟩
  have := (C50_broadcast_shape _ _ _).2 hs
  have e : bshape [2] [3] = none := by decide
  rw [e] at this
  exact absurd this (by simp)

/-- `semiparameter(h, mu)` with `h` of shape `(2, 1)` and `mu` of shape `(3,)`: a `(2, 3)` array whose
entry `(1, 2)` is `h[1,0]**2 / mu[2]`. -/
example (h mu : (ℕ → ℕ) → ℝ) :
    ∃ R : ND ℝ, semiparameter (.ok ⟨[2, 1], h⟩ : Arr ℝ) (.ok ⟨[3], mu⟩) = .ok R ∧ R.shape = [2, 3] ∧
      R.get (fun k => if k = 0 then 2 else if k = 1 then 1 else 0)
        = h (fun k => if k = 1 then 1 else 0) ^ 2 / mu (fun k => if k = 0 then 2 else 0) := by
  obtain ⟨R, h1, h2, h3⟩ := (C50_semiparameter (β := ℝ) (fun i => if i = 0 then ⟨[2, 1], h⟩ else ⟨[3], mu⟩)).1
    [2, 3] (by simpa [List.ofFn_succ] using (C50_broadcast_shape _ _ _).1 (by decide))
  refine ⟨R, by simpa using h1, h2, ?_⟩
  rw [h3]
  · simp only [semiparameter, if_true, Fin.isValue, one_ne_zero, if_false]
    congr 3
    · funext k
      rcases k with _ | _ | _ | k <;> simp [operandIdx, dimR]
    · funext k
      rcases k with _ | _ | _ | k <;> simp [operandIdx, dimR]
  · intro k
    rcases k with _ | _ | _ | k <;> simp [dimR]

/-- `semiparameter` of arrays of shapes `(2,)` and `(3,)` raises. -/
example (h mu : (ℕ → ℕ) → ℝ) :
    ∃ e, semiparameter (.ok ⟨[2], h⟩ : Arr ℝ) (.ok ⟨[3], mu⟩) = .error e :=
  ⟨_, rfl⟩

end Adx
