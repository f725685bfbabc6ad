import Verif.Model.OrbElements
import Verif.Model.StateTrans
import Verif.Model.PathCheck
import Verif.Model.Kepler
import Verif.Model.Gravity

/-!
# Running the model on the numbers of the docstrings

The generic model is instantiated at `Float` (binary64) and run on the examples printed in the
docstrings of /repo/src. These are *tests of the transcription*, not proofs: they check that the Lean
definitions compute the numbers the Python functions are documented to compute.
-/

namespace Adx.FloatRun
open Adx

instance : NatCast Float := ⟨Float.ofNat⟩
/-- `x**n` by repeated multiplication -/
def fpow (x : Float) : ℕ → Float
  | 0 => 1
  | n + 1 => fpow x n * x
instance : Pow Float ℕ := ⟨fpow⟩

/-- binary64 arithmetic -/
instance : JFun Float where
  pi := 3.141592653589793
  sqrt := Float.sqrt
  cbrt := Float.cbrt
  sin := Float.sin
  cos := Float.cos
  sinh := Float.sinh
  cosh := Float.cosh
  log := Float.log
  arccos := Float.acos
  arctan2 := Float.atan2
  abs := Float.abs
  maximum := fun a b => if a < b then b else a
  floor := Float.floor
  onesLike := fun _ => 1
  item := fun x => x
  lt := fun a b => decide (a < b)

/-- `jnp.allclose` with the default tolerances -/
def close (a b : Float) : Bool := Float.abs (a - b) ≤ 1e-8 + 1e-5 * Float.abs b
def closeAt (tol a b : Float) : Bool := Float.abs (a - b) ≤ tol
def closeV (a b : V3 Float) : Bool := close a.x b.x && close a.y b.y && close a.z b.z
def closeVAt (t : Float) (a b : V3 Float) : Bool :=
  closeAt t a.x b.x && closeAt t a.y b.y && closeAt t a.z b.z
def closeM (a b : M3 Float) : Bool := closeV a.r0 b.r0 && closeV a.r1 b.r1 && closeV a.r2 b.r2
def deg2rad (x : Float) : Float := x * 3.141592653589793 / 180

-- _kep_equ.py:35-41, 98-104, 161-167, 204-210, 257-266, 325-333, 375-380, 427-432
#guard closeAt 1e-4 (kepler_equ_elps (0.7853981633974483 : Float) 0.1 0.7) 0.01468
#guard closeAt 1e-4 (kepler_equ_hypb (1.0 : Float) 1.5 1.0) (-0.2371)
#guard closeAt 1e-4 (kepler_equ_hypb (2.0 : Float) 1.5 1.0) 2.4402
#guard close (mean_anomaly_elps (2.0 : Float) 1.0 2.0) 0.5
#guard close (mean_anomaly_hypb (-2.0 : Float) 1.0 2.0) 0.5
#guard close (kepler_equ_uni (2.0 : Float) 1.0 1.0 0.0 1.0 1.0) 1.0
#guard close (generalized_anomaly (1.0 : Float) 2.0 0.0 1.0 1.0) 3.0
#guard (solve_kepler_elps (3.6029 : Float) 0.37255).any fun E => closeAt 1e-3 E 3.4795
#guard (solve_kepler_hypb (40.69 : Float) 2.7696).any fun H => closeAt 1e-3 H 3.4635
-- _kep_equ.py:487-498
#guard (solve_kepler_uni (1.5707963267948966 : Float) (1 / semimajor_axis 1.0 1.1 1.0) 1.0 0.0 1.0).any
  fun chi => Float.abs (kepler_equ_uni chi (1 / semimajor_axis 1.0 1.1 1.0) 1.0 0.0
    1.5707963267948966 1.0) < 1e-6
-- _uniformulas.py docstrings
#guard closeAt 1e-4 (ufunc0 (2.0 : Float) 1.0) (-0.4161)
#guard closeAt 1e-4 (ufunc2 (1.0 : Float) 1.0) 0.4596
#guard closeAt 1e-4 (ufunc3 (2.0 : Float) 1.0) 1.0907
#guard closeAt 1e-4 (ufunc4 (1.0 : Float) 1.0) 0.0403
#guard closeAt 1e-4 (ufunc4 (2.0 : Float) 1.0) 0.5838
#guard closeAt 1e-4 (ufunc5 (2.0 : Float) 1.0) 0.2426
#guard closeAt 1e-4 (ufunc5 (3.0 : Float) 1.0) 1.6411
-- _kepler.py:66-74
#guard (kepler [(3.141592653589793 : Float)] ⟨1, 0, 0⟩ ⟨0, 1, 0⟩ 1.0).any fun rv =>
  rv.1.all (closeVAt 1e-6 · ⟨-1, 0, 0⟩) && rv.2.all (closeVAt 1e-6 · ⟨0, -1, 0⟩)
    && rv.1.length == 1 && rv.2.length == 1
-- _orb_elements.py:141-163, 227-256
#guard
  let c := rv2coe (⟨-4039.8965, 4814.5605, 3628.625⟩ : V3 Float) ⟨-10.385988, -4.771922, 1.7438745⟩ 398600
  close c.p 16056.1966 && close c.e 1.4 && close c.incl (deg2rad 30) && close c.raan (deg2rad 40)
    && close c.argp (deg2rad 60) && close c.true_anom (deg2rad 30)
#guard
  let c := rv2coe (⟨6525.3677, 6861.5317, 6449.117⟩ : V3 Float) ⟨4.902279, 5.5331397, -1.9757109⟩ 398600.4418
  close c.p 11067.79 && close c.e 0.83285 && close c.incl (deg2rad 87.87) && close c.raan (deg2rad 227.89)
    && close c.argp (deg2rad 53.38) && close c.true_anom (deg2rad 92.335)
#guard
  let rv := coe2rv (11067.79 : Float) 0.83285 (deg2rad 87.87) (deg2rad 227.89) (deg2rad 53.38)
    (deg2rad 92.335) 398600.4418
  closeV rv.1 ⟨6525.3677, 6861.5317, 6449.117⟩ && closeV rv.2 ⟨4.902279, 5.5331397, -1.9757109⟩
-- _state_trans.py:281-296
#guard
  let m := dxdx0 (⟨-0.24986234273434585, -0.69332384278075210, 4.9599012168662551e-3⟩ : V3 Float)
    ⟨1.2189179487500401, 0.05977450696618754, -0.007101943980682161⟩
    ⟨-0.66234662571997105, 0.74919751798749190, -1.6259997018919074e-4⟩
    ⟨-0.8166746784630675, -0.32961417380268476, 0.006248107587795581⟩ 2.5803148345055149 1.0
  closeM m.rr ⟨⟨6.96499107, -4.49913836, -1.89246497e-02⟩, ⟨1.51857748, -1.52804032, -3.60174714e-03⟩,
      ⟨-4.98856694e-02, 2.99417750e-02, -5.82723061e-01⟩⟩
    && closeM m.rv ⟨⟨7.59769798, -5.23072188e-01, -3.53190183e-02⟩,
      ⟨2.52883087, 1.17277875, -1.61237785e-02⟩, ⟨-5.10209945e-02, 8.87921668e-04, 7.78936443e-01⟩⟩
    && closeM m.vr ⟨⟨4.75150081, -3.53238392, -1.06813429e-02⟩, ⟨8.76182663, -6.69223965, -1.65955664e-02⟩,
      ⟨-7.39347940e-02, 5.19339444e-02, -4.25016825e-01⟩⟩
    && closeM m.vv ⟨⟨6.32244923, 1.13091953, -4.74582385e-02⟩,
      ⟨10.0231736, -5.74210092e-02, -6.14800215e-02⟩, ⟨-9.32086959e-02, -1.19134537e-02, -1.14713870⟩⟩
-- _path_check.py:44-52, 78-84, 122-128, 153-159
#guard nmax_by_periapsis (0.97 : Float) 1 1 3.141592653589793 1 == 0
#guard is_short_way (⟨1, 0, 0⟩ : V3 Float) ⟨0, 1, 0⟩ ⟨0, 1, 0⟩
#guard !pass_perigee (⟨1, 0, 0⟩ : V3 Float) ⟨0, 1, 0⟩ ⟨0, 1, 0⟩ 1
#guard !rp_islower_rmin (0.97 : Float) ⟨1, 0, 0⟩ ⟨0, 1, 0⟩ 1

/-- the keyword dictionaries of the examples in gravity/_general.py -/
def exArgs : Args Float := fun k =>
  if k = "mu" then some 1.0 else if k = "R_eq" then some 1.0 else if k = "J2" then some 1e-3
  else if k = "J3" then some 1e-6 else if k = "J4" then some 1e-6 else none
def exX : State Float := ⟨⟨1, -1, 1⟩, [0, 0, 0]⟩
def okClose (tol : Float) (r : Except PyErr (V3 Float)) (v : V3 Float) : Bool :=
  match r with
  | .ok a => closeVAt tol a v
  | .error _ => false
-- gravity/_general.py:32-38, 73-81, 126-134, 179-187
#guard okClose 1e-4 (point_mass_grav 0 exX exArgs) ⟨-0.1924, 0.1924, -0.1924⟩
#guard okClose 1e-9 (j2_acc 0 exX exArgs) ⟨6.4150023e-05, -6.4150023e-05, -1.2830009e-04⟩
#guard okClose 1e-12 (j3_acc 0 exX exArgs) ⟨-3.5638898e-08, 3.5638898e-08, -9.9788920e-08⟩
#guard okClose 1e-12 (j4_acc 0 exX exArgs) ⟨-5.345836e-08, 5.345836e-08, -1.781946e-08⟩
#guard match j2_acc 0 exX (fun k => if k = "mu" then some (1.0 : Float) else none) with
  | .ok _ => false
  | .error e => e == .keyError "J2"

end Adx.FloatRun
