import Verif.Lemmas.While
import Verif.Props.C26
import Verif.Model.OrbElements
import Verif.Model.StateTrans
import Verif.Model.Gravity
import Verif.Model.PathCheck

/-! # Parametricity of the model

Every model function is generic in its arithmetic. So if two arithmetics are related by `R` and every operation respects
`R`, every function of the library respects `R`. Proved function by function. -/

namespace Adx
variable {α β : Type}
variable [Add α] [Sub α] [Neg α] [Mul α] [Div α] [Pow α ℕ] [NatCast α] [JFun α]
variable [Add β] [Sub β] [Neg β] [Mul β] [Div β] [Pow β ℕ] [NatCast β] [JFun β]

/-- Every operation respects `R`. -/
structure Compat (R : α → β → Prop) : Prop where
  add : ∀ {a b a' b'}, R a b → R a' b' → R (a + a') (b + b')
  sub : ∀ {a b a' b'}, R a b → R a' b' → R (a - a') (b - b')
  mul : ∀ {a b a' b'}, R a b → R a' b' → R (a * a') (b * b')
  div : ∀ {a b a' b'}, R a b → R a' b' → R (a / a') (b / b')
  neg : ∀ {a b}, R a b → R (-a) (-b)
  pow : ∀ {a b} (n : ℕ), R a b → R (a ^ n) (b ^ n)
  cast : ∀ n : ℕ, R n n
  pi : R JFun.pi JFun.pi
  sqrt : ∀ {a b}, R a b → R (JFun.sqrt a) (JFun.sqrt b)
  cbrt : ∀ {a b}, R a b → R (JFun.cbrt a) (JFun.cbrt b)
  sin : ∀ {a b}, R a b → R (JFun.sin a) (JFun.sin b)
  cos : ∀ {a b}, R a b → R (JFun.cos a) (JFun.cos b)
  sinh : ∀ {a b}, R a b → R (JFun.sinh a) (JFun.sinh b)
  cosh : ∀ {a b}, R a b → R (JFun.cosh a) (JFun.cosh b)
  log : ∀ {a b}, R a b → R (JFun.log a) (JFun.log b)
  arccos : ∀ {a b}, R a b → R (JFun.arccos a) (JFun.arccos b)
  arctan2 : ∀ {a b a' b'}, R a b → R a' b' → R (JFun.arctan2 a a') (JFun.arctan2 b b')
  abs : ∀ {a b}, R a b → R (JFun.abs a) (JFun.abs b)
  maximum : ∀ {a b a' b'}, R a b → R a' b' → R (JFun.maximum a a') (JFun.maximum b b')
  floor : ∀ {a b}, R a b → R (JFun.floor a) (JFun.floor b)
  onesLike : ∀ {a b}, R a b → R (JFun.onesLike a) (JFun.onesLike b)
  item : ∀ {a b}, R a b → R (JFun.item a) (JFun.item b)
  lt : ∀ {a b a' b'}, R a b → R a' b' → JFun.lt a a' = JFun.lt b b'

/-- Related vectors. -/
structure RelV (R : α → β → Prop) (u : V3 α) (v : V3 β) : Prop where
  x : R u.x v.x
  y : R u.y v.y
  z : R u.z v.z

/-- Related matrices. -/
structure RelM (R : α → β → Prop) (a : M3 α) (b : M3 β) : Prop where
  r0 : RelV R a.r0 b.r0
  r1 : RelV R a.r1 b.r1
  r2 : RelV R a.r2 b.r2

/-- Related block matrices. -/
structure RelB (R : α → β → Prop) (a : B6 α) (b : B6 β) : Prop where
  rr : RelM R a.rr b.rr
  rv : RelM R a.rv b.rv
  vr : RelM R a.vr b.vr
  vv : RelM R a.vv b.vv

/-- Related element sets. -/
structure RelC (R : α → β → Prop) (a : COE α) (b : COE β) : Prop where
  p : R a.p b.p
  e : R a.e b.e
  incl : R a.incl b.incl
  raan : R a.raan b.raan
  argp : R a.argp b.argp
  true_anom : R a.true_anom b.true_anom

/-- Related optional results. -/
def RelO {γ δ : Type} (R : γ → δ → Prop) : Option γ → Option δ → Prop
  | some a, some b => R a b
  | none, none => True
  | _, _ => False

/-- Related results that may be errors (the same error). -/
def RelE {γ δ : Type} (R : γ → δ → Prop) : Except PyErr γ → Except PyErr δ → Prop
  | .ok a, .ok b => R a b
  | .error e, .error e' => e = e'
  | _, _ => False

omit [Add α] [Sub α] [Neg α] [Mul α] [Div α] [Pow α ℕ] [NatCast α] [JFun α]
  [Add β] [Sub β] [Neg β] [Mul β] [Div β] [Pow β ℕ] [NatCast β] [JFun β] in
theorem rel_ite {R : α → β → Prop} {p q : Bool} (h : p = q) {a a' : α} {b b' : β} (h1 : R a b) (h2 : R a' b') :
    R (if p then a else a') (if q then b else b') := by
  subst h; cases p <;> assumption

/-- Descend through the operations. -/
macro "par" H:ident : tactic =>
  `(tactic| repeat' (first
    | assumption | exact Compat.cast $H _ | exact Compat.pi $H
    | refine Compat.add $H ?_ ?_ | refine Compat.sub $H ?_ ?_ | refine Compat.mul $H ?_ ?_ | refine Compat.div $H ?_ ?_
    | refine Compat.neg $H ?_ | refine Compat.pow $H _ ?_ | refine Compat.sqrt $H ?_ | refine Compat.cbrt $H ?_
    | refine Compat.sin $H ?_ | refine Compat.cos $H ?_ | refine Compat.sinh $H ?_ | refine Compat.cosh $H ?_
    | refine Compat.log $H ?_ | refine Compat.arccos $H ?_ | refine Compat.arctan2 $H ?_ ?_ | refine Compat.abs $H ?_
    | refine Compat.maximum $H ?_ ?_ | refine Compat.floor $H ?_ | refine Compat.onesLike $H ?_
    | refine Compat.item $H ?_ | refine rel_ite (Compat.lt $H ?_ ?_) ?_ ?_))

namespace Compat
variable {R : α → β → Prop} (H : Compat R)
include H

section Scalars
variable {a b c d e f g : α} {a' b' c' d' e' f' g' : β}
  (ha : R a a') (hb : R b b') (hc : R c c') (hd : R d d') (he : R e e') (hf : R f f') (hg : R g g')
include ha

theorem mean_motion : R (Adx.mean_motion a) (Adx.mean_motion a') := by unfold Adx.mean_motion; par H
include hb
theorem orb_period : R (Adx.orb_period a b) (Adx.orb_period a' b') := by unfold Adx.orb_period; par H
theorem a_from_period : R (Adx.a_from_period a b) (Adx.a_from_period a' b') := by unfold Adx.a_from_period; par H
theorem semiparameter : R (Adx.semiparameter a b) (Adx.semiparameter a' b') := by unfold Adx.semiparameter; par H
theorem radius_periapsis : R (Adx.radius_periapsis a b) (Adx.radius_periapsis a' b') := by unfold Adx.radius_periapsis; par H
theorem radius_apoapsis : R (Adx.radius_apoapsis a b) (Adx.radius_apoapsis a' b') := by unfold Adx.radius_apoapsis; par H
theorem semipara_from_ae : R (Adx.semipara_from_ae a b) (Adx.semipara_from_ae a' b') := by unfold Adx.semipara_from_ae; par H
theorem a_from_pe : R (Adx.a_from_pe a b) (Adx.a_from_pe a' b') := by unfold Adx.a_from_pe; par H
theorem dE : R (Adx.dE a b) (Adx.dE a' b') := by unfold Adx.dE; par H
theorem dH : R (Adx.dH a b) (Adx.dH a' b') := by unfold Adx.dH; par H
theorem ufunc0 : R (Adx.ufunc0 a b) (Adx.ufunc0 a' b') := by unfold Adx.ufunc0; par H
theorem ufunc1 : R (Adx.ufunc1 a b) (Adx.ufunc1 a' b') := by unfold Adx.ufunc1; par H
theorem ufunc2 : R (Adx.ufunc2 a b) (Adx.ufunc2 a' b') := by unfold Adx.ufunc2; par H
theorem ufunc3 : R (Adx.ufunc3 a b) (Adx.ufunc3 a' b') := by unfold Adx.ufunc3; par H
theorem ufunc4 : R (Adx.ufunc4 a b) (Adx.ufunc4 a' b') := by unfold Adx.ufunc4; par H
theorem ufunc5 : R (Adx.ufunc5 a b) (Adx.ufunc5 a' b') := by unfold Adx.ufunc5; par H
theorem lagrange_F : R (Adx.lagrange_F a b) (Adx.lagrange_F a' b') := by unfold Adx.lagrange_F; par H
theorem lagrange_Gt : R (Adx.lagrange_Gt a b) (Adx.lagrange_Gt a' b') := by unfold Adx.lagrange_Gt; par H
include hc
theorem semimajor_axis : R (Adx.semimajor_axis a b c) (Adx.semimajor_axis a' b' c') := by unfold Adx.semimajor_axis; par H
theorem equ_of_orbit : R (Adx.equ_of_orbit a b c) (Adx.equ_of_orbit a' b' c') := by unfold Adx.equ_of_orbit; par H
theorem kepler_equ_elps : R (Adx.kepler_equ_elps a b c) (Adx.kepler_equ_elps a' b' c') := by
  unfold Adx.kepler_equ_elps; par H
theorem kepler_equ_hypb : R (Adx.kepler_equ_hypb a b c) (Adx.kepler_equ_hypb a' b' c') := by
  unfold Adx.kepler_equ_hypb; par H
theorem mean_anomaly_elps : R (Adx.mean_anomaly_elps a b c) (Adx.mean_anomaly_elps a' b' c') := by
  unfold Adx.mean_anomaly_elps; par H
theorem mean_anomaly_hypb : R (Adx.mean_anomaly_hypb a b c) (Adx.mean_anomaly_hypb a' b' c') := by
  unfold Adx.mean_anomaly_hypb; par H
include hd
theorem lagrange_Ft : R (Adx.lagrange_Ft a b c d) (Adx.lagrange_Ft a' b' c' d') := by unfold Adx.lagrange_Ft; par H
theorem dchi : R (Adx.dchi a b c d) (Adx.dchi a' b' c' d') := by
  have h0 := H.ufunc0 ha hb
  have h1 := H.ufunc1 ha hb
  have h2 := H.ufunc2 ha hb
  unfold Adx.dchi Adx.equ_of_orb_uvi; par H
include he
theorem equ_of_orb_uvi : R (Adx.equ_of_orb_uvi a b c d e) (Adx.equ_of_orb_uvi a' b' c' d' e') := by
  unfold Adx.equ_of_orb_uvi; par H
theorem generalized_anomaly : R (Adx.generalized_anomaly a b c d e) (Adx.generalized_anomaly a' b' c' d' e') := by
  unfold Adx.generalized_anomaly; par H
theorem lagrange_G : R (Adx.lagrange_G a b c d e) (Adx.lagrange_G a' b' c' d' e') := by
  unfold Adx.lagrange_G; par H
theorem nmax_by_periapsis : R (Adx.nmax_by_periapsis a b c d e) (Adx.nmax_by_periapsis a' b' c' d' e') := by
  unfold Adx.nmax_by_periapsis; par H
include hf
theorem C_func : R (Adx.C_func a b c d e f) (Adx.C_func a' b' c' d' e' f') := by
  unfold Adx.C_func; par H
theorem kepler_equ_uni : R (Adx.kepler_equ_uni a b c d e f) (Adx.kepler_equ_uni a' b' c' d' e' f') := by
  have h1 := H.ufunc1 ha hb
  have h2 := H.ufunc2 ha hb
  have h3 := H.ufunc3 ha hb
  unfold Adx.kepler_equ_uni; par H

end Scalars

/-! ### Vectors and matrices -/

section Vectors
variable {u v w x : V3 α} {u' v' w' x' : V3 β} (hu : RelV R u u') (hv : RelV R v v') (hw : RelV R w w') (hx : RelV R x x')
variable {k : α} {k' : β} (hk : R k k')
variable {m n : M3 α} {m' n' : M3 β} (hm : RelM R m m') (hn : RelM R n n')
include hu

theorem vneg : RelV R (-u) (-u') := ⟨H.neg hu.x, H.neg hu.y, H.neg hu.z⟩
theorem norm : R (V3.norm u) (V3.norm u') :=
  H.sqrt (H.add (H.add (H.mul hu.x hu.x) (H.mul hu.y hu.y)) (H.mul hu.z hu.z))
include hv
theorem vadd : RelV R (u + v) (u' + v') := ⟨H.add hu.x hv.x, H.add hu.y hv.y, H.add hu.z hv.z⟩
theorem vsub : RelV R (u - v) (u' - v') := ⟨H.sub hu.x hv.x, H.sub hu.y hv.y, H.sub hu.z hv.z⟩
theorem dot : R (V3.dot u v) (V3.dot u' v') :=
  H.add (H.add (H.mul hu.x hv.x) (H.mul hu.y hv.y)) (H.mul hu.z hv.z)
theorem cross : RelV R (V3.cross u v) (V3.cross u' v') :=
  ⟨H.sub (H.mul hu.y hv.z) (H.mul hu.z hv.y), H.sub (H.mul hu.z hv.x) (H.mul hu.x hv.z),
    H.sub (H.mul hu.x hv.y) (H.mul hu.y hv.x)⟩
omit hv
include hk
theorem smul : RelV R (k • u) (k' • u') := ⟨H.mul hk hu.x, H.mul hk hu.y, H.mul hk hu.z⟩
theorem vdiv : RelV R (u / k) (u' / k') := ⟨H.div hu.x hk, H.div hu.y hk, H.div hu.z hk⟩
omit hu
include hm
theorem msmul : RelM R (k • m) (k' • m') := ⟨H.smul hm.r0 hk, H.smul hm.r1 hk, H.smul hm.r2 hk⟩
theorem mdiv : RelM R (m / k) (m' / k') := ⟨H.vdiv hm.r0 hk, H.vdiv hm.r1 hk, H.vdiv hm.r2 hk⟩
omit hk
theorem mneg : RelM R (-m) (-m') := ⟨H.vneg hm.r0, H.vneg hm.r1, H.vneg hm.r2⟩
theorem mulVec (hu : RelV R u u') : RelV R (M3.mulVec m u) (M3.mulVec m' u') :=
  ⟨H.dot hm.r0 hu, H.dot hm.r1 hu, H.dot hm.r2 hu⟩
include hn
theorem madd : RelM R (m + n) (m' + n') := ⟨H.vadd hm.r0 hn.r0, H.vadd hm.r1 hn.r1, H.vadd hm.r2 hn.r2⟩
theorem msub : RelM R (m - n) (m' - n') := ⟨H.vsub hm.r0 hn.r0, H.vsub hm.r1 hn.r1, H.vsub hm.r2 hn.r2⟩
theorem mmul : RelM R (M3.mul m n) (M3.mul m' n') := by
  have c0 : RelV R (M3.transpose n).r0 (M3.transpose n').r0 := ⟨hn.r0.x, hn.r1.x, hn.r2.x⟩
  have c1 : RelV R (M3.transpose n).r1 (M3.transpose n').r1 := ⟨hn.r0.y, hn.r1.y, hn.r2.y⟩
  have c2 : RelV R (M3.transpose n).r2 (M3.transpose n').r2 := ⟨hn.r0.z, hn.r1.z, hn.r2.z⟩
  exact ⟨⟨H.dot hm.r0 c0, H.dot hm.r0 c1, H.dot hm.r0 c2⟩, ⟨H.dot hm.r1 c0, H.dot hm.r1 c1, H.dot hm.r1 c2⟩,
    ⟨H.dot hm.r2 c0, H.dot hm.r2 c1, H.dot hm.r2 c2⟩⟩
omit hm hn
theorem eye : RelM R M3.eye M3.eye :=
  ⟨⟨H.cast 1, H.cast 0, H.cast 0⟩, ⟨H.cast 0, H.cast 1, H.cast 0⟩, ⟨H.cast 0, H.cast 0, H.cast 1⟩⟩
include hu hv
theorem outer : RelM R (M3.outer u v) (M3.outer u' v') := ⟨H.smul hv hu.x, H.smul hv hu.y, H.smul hv hu.z⟩

theorem angular_momentum : RelV R (Adx.angular_momentum u v) (Adx.angular_momentum u' v') := H.cross hu hv
include hk
theorem eccentricity_vector : RelV R (Adx.eccentricity_vector u v k) (Adx.eccentricity_vector u' v' k') :=
  H.vsub (H.vdiv (H.cross hv (H.cross hu hv)) hk) (H.vdiv hu (H.norm hu))
theorem sigma_fn : R (Adx.sigma_fn u v k) (Adx.sigma_fn u' v' k') := H.div (H.dot hu hv) (H.sqrt hk)
omit hk
include hw
theorem is_short_way : Adx.is_short_way u v w = Adx.is_short_way u' v' w' :=
  H.lt (H.cast 0) (H.dot (H.cross hu hv) (H.cross hu hw))
include hk
theorem pass_perigee : Adx.pass_perigee u v w k = Adx.pass_perigee u' v' w' k' := by
  have he := H.eccentricity_vector hu hv hk
  have h1 := H.is_short_way hu hv hw
  have h2 := H.lt (H.cast 0) (H.dot (H.cross hu hw) (H.cross hu he))
  have h3 := H.lt (H.cast 0) (H.dot (H.cross hu hw) (H.cross he hw))
  simp only [Adx.pass_perigee, h1, h2, h3]
omit hw
theorem rp_islower_rmin {l : α} {l' : β} (hl : R l l') :
    Adx.rp_islower_rmin l u v k = Adx.rp_islower_rmin l' u' v' k' :=
  H.lt (H.radius_periapsis (H.semiparameter (H.norm (H.cross hu hv)) hk)
    (H.norm (H.eccentricity_vector hu hv hk))) hl
end Vectors

section Elements
variable {a : α} {b : β}

theorem wrapNeg (h : R a b) : R (Adx.wrapNeg a) (Adx.wrapNeg b) := by unfold Adx.wrapNeg; par H

theorem rotmat3dx (h : R a b) : RelM R (Adx.rotmat3dx a) (Adx.rotmat3dx b) := by
  refine ⟨⟨?_, ?_, ?_⟩, ⟨?_, ?_, ?_⟩, ⟨?_, ?_, ?_⟩⟩ <;> simp only [Adx.rotmat3dx] <;> par H
theorem rotmat3dy (h : R a b) : RelM R (Adx.rotmat3dy a) (Adx.rotmat3dy b) := by
  refine ⟨⟨?_, ?_, ?_⟩, ⟨?_, ?_, ?_⟩, ⟨?_, ?_, ?_⟩⟩ <;> simp only [Adx.rotmat3dy] <;> par H
theorem rotmat3dz (h : R a b) : RelM R (Adx.rotmat3dz a) (Adx.rotmat3dz b) := by
  refine ⟨⟨?_, ?_, ?_⟩, ⟨?_, ?_, ?_⟩, ⟨?_, ?_, ?_⟩⟩ <;> simp only [Adx.rotmat3dz] <;> par H

section Angles
variable {u v : V3 α} {u' v' : V3 β} (hu : RelV R u u')
include hu
theorem inclination : R (Adx.inclination u) (Adx.inclination u') := H.arccos (H.div hu.z (H.norm hu))
theorem right_ascension : R (Adx.right_ascension u) (Adx.right_ascension u') := H.wrapNeg (H.arctan2 hu.y hu.x)
theorem true_anomaly (hv : RelV R v v') : R (Adx.true_anomaly u v) (Adx.true_anomaly u' v') :=
  H.wrapNeg (H.arctan2 (H.norm (H.cross hv hu)) (H.dot hv hu))
theorem argument_of_periapsis (hv : RelV R v v') :
    R (Adx.argument_of_periapsis u v) (Adx.argument_of_periapsis u' v') :=
  H.wrapNeg (H.arctan2 (H.norm (H.cross hu hv)) (H.dot hu hv))
end Angles

theorem rv2coe {r v : V3 α} {r' v' : V3 β} {mu : α} {mu' : β} (hr : RelV R r r') (hv : RelV R v v') (hmu : R mu mu') :
    RelC R (Adx.rv2coe r v mu) (Adx.rv2coe r' v' mu') := by
  have hh := H.angular_momentum hr hv
  have he := H.eccentricity_vector hr hv hmu
  have hN : RelV R (node_vec (Adx.angular_momentum r v)) (node_vec (Adx.angular_momentum r' v')) :=
    H.cross (u := ⟨Nat.cast 0, Nat.cast 0, Nat.cast 1⟩) (u' := ⟨Nat.cast 0, Nat.cast 0, Nat.cast 1⟩)
      ⟨H.cast 0, H.cast 0, H.cast 1⟩ hh
  exact ⟨H.semiparameter (H.norm hh) hmu, H.norm he, H.arccos (H.div hh.z (H.norm hh)), H.wrapNeg (H.arctan2 hN.y hN.x),
    H.wrapNeg (H.arctan2 (H.norm (H.cross hN he)) (H.dot hN he)),
    H.wrapNeg (H.arctan2 (H.norm (H.cross he hr)) (H.dot he hr))⟩

theorem coe2rv {p e i O w f mu : α} {p' e' i' O' w' f' mu' : β} (hp : R p p') (he : R e e') (hi : R i i') (hO : R O O')
    (hw : R w w') (hf : R f f') (hmu : R mu mu') :
    RelV R (Adx.coe2rv p e i O w f mu).1 (Adx.coe2rv p' e' i' O' w' f' mu').1 ∧
    RelV R (Adx.coe2rv p e i O w f mu).2 (Adx.coe2rv p' e' i' O' w' f' mu').2 := by
  have hM := H.mmul (H.mmul (H.rotmat3dz hO) (H.rotmat3dx hi)) (H.rotmat3dz hw)
  constructor
  · refine H.mulVec hM (H.smul ⟨?_, ?_, ?_⟩ ?_) <;> par H
  · refine H.mulVec hM (H.smul ⟨?_, ?_, ?_⟩ ?_) <;> par H

end Elements

section Trans
variable {r v r0 v0 : V3 α} {r' v' r0' v0' : V3 β} (hr : RelV R r r') (hv : RelV R v v') (hr0 : RelV R r0 r0')
  (hv0 : RelV R v0 v0')
include hr hv hr0 hv0

theorem dxdx0 {t mu : α} {t' mu' : β} (ht : R t t') (hmu : R mu mu') :
    RelB R (Adx.dxdx0 r v r0 v0 t mu) (Adx.dxdx0 r' v' r0' v0' t' mu') := by
  have n0 := H.norm hr0
  have n1 := H.norm hr
  have hal := H.div (H.cast 1) (H.semimajor_axis n0 (H.norm hv0) hmu)
  have hchi := H.generalized_anomaly hal (H.sigma_fn hr hv hmu) (H.sigma_fn hr0 hv0 hmu) ht hmu
  have u1 := H.ufunc1 hchi hal
  have u2 := H.ufunc2 hchi hal
  have hC := H.C_func hchi u2 (H.ufunc4 hchi hal) (H.ufunc5 hchi hal) ht hmu
  have hF := H.lagrange_F u2 n0
  have hG := H.lagrange_G u1 u2 (H.sigma_fn hr0 hv0 hmu) n0 hmu
  have hFt := H.lagrange_Ft u1 n1 n0 hmu
  have hGt := H.lagrange_Gt u2 n1
  have dv := H.vsub hv hv0
  have hI := H.eye
  have i1 := H.sub (H.cast 1) hF
  refine ⟨?_, ?_, ?_, ?_⟩
  · exact H.madd (H.madd (H.madd (H.msmul (H.div n1 hmu) (H.outer dv dv))
      (H.msmul i1 (H.outer (H.vdiv hr n0) (H.vdiv hr0 n0))))
      (H.msmul (H.div hC (H.pow 2 n0)) (H.outer hv (H.vdiv hr0 n0)))) (H.msmul hF hI)
  · exact H.madd (H.madd (H.msmul (H.mul (H.div n0 hmu) i1)
      (H.msub (H.outer (H.vsub hr hr0) hv0) (H.outer dv hr0))) (H.msmul (H.div hC hmu) (H.outer hv hv0)))
      (H.msmul hG hI)
  · exact H.msub (H.madd (H.msub (H.mneg (H.outer dv (H.vdiv hr0 (H.pow 2 n0))))
      (H.outer (H.vdiv hr (H.pow 2 n1)) dv))
      (H.msmul hFt (H.madd (H.msub hI (H.outer (H.vdiv hr n1) (H.vdiv hr n1)))
        (H.mmul (H.mdiv hmu (H.msub (H.outer hr hv) (H.outer hv hr))) (H.outer (H.vdiv hr n1) dv)))))
      (H.msmul (H.div (H.mul (H.div hmu (H.pow 2 n1)) hC) (H.pow 2 n0)) (H.outer (H.vdiv hr n1) (H.vdiv hr0 n0)))
  · exact H.madd (H.msub (H.madd (H.msmul (H.div n0 hmu) (H.outer dv dv))
      (H.mdiv n1 (H.msmul n0 (H.msmul i1 (H.outer (H.vdiv hr n1) (H.vdiv hr0 n1))))))
      (H.msmul (H.div hC (H.pow 2 n1)) (H.outer (H.vdiv hr n1) hv0))) (H.msmul hGt hI)

end Trans

section Gravity
variable {t : α} {t' : β} {x : State α} {x' : State β} (hx : RelV R x.pos x'.pos) {args : Args α} {args' : Args β}
  (hargs : ∀ k, RelO R (args k) (args' k))
include hx hargs

omit H hx [Add α] [Sub α] [Neg α] [Mul α] [Div α] [Pow α ℕ] [NatCast α] [JFun α]
  [Add β] [Sub β] [Neg β] [Mul β] [Div β] [Pow β ℕ] [NatCast β] [JFun β] in
theorem _root_.Adx.RelO.get (k : String) : RelE R (args.get k) (args'.get k) := by
  have := hargs k
  unfold Args.get
  revert this
  cases args k <;> cases args' k <;> simp [RelO, RelE]

theorem point_mass_grav : RelE (RelV R) (Adx.point_mass_grav t x args) (Adx.point_mass_grav t' x' args') := by
  have h1 := RelO.get hargs "mu"
  have hn := H.norm hx
  have hx1 := hx.x; have hx2 := hx.y; have hx3 := hx.z
  unfold Adx.point_mass_grav
  revert h1
  rcases args.get "mu" with e | mu <;> rcases args'.get "mu" with e' | mu' <;> intro h1 <;> try exact h1.elim
  · exact h1
  · have h1 : R mu mu' := h1
    refine ⟨?_, ?_, ?_⟩ <;> par H

theorem j2_acc : RelE (RelV R) (Adx.j2_acc t x args) (Adx.j2_acc t' x' args') := by
  have h1 := RelO.get hargs "mu"
  have h2 := RelO.get hargs "J2"
  have h3 := RelO.get hargs "R_eq"
  have hn := H.norm hx
  have hx1 := hx.x; have hx2 := hx.y; have hx3 := hx.z
  unfold Adx.j2_acc
  revert h1 h2 h3
  rcases args.get "mu" with e | mu <;> rcases args'.get "mu" with e' | mu' <;> intro h1 <;> try exact h1.elim
  · exact fun _ _ => h1
  rcases args.get "J2" with e | J <;> rcases args'.get "J2" with e' | J' <;> intro h2 <;> try exact h2.elim
  · exact fun _ => h2
  rcases args.get "R_eq" with e | Q <;> rcases args'.get "R_eq" with e' | Q' <;> intro h3 <;> try exact h3.elim
  · exact h3
  have h1 : R mu mu' := h1
  have h2 : R J J' := h2
  have h3 : R Q Q' := h3
  refine ⟨?_, ?_, ?_⟩ <;> par H

theorem j3_acc : RelE (RelV R) (Adx.j3_acc t x args) (Adx.j3_acc t' x' args') := by
  have h1 := RelO.get hargs "mu"
  have h2 := RelO.get hargs "J3"
  have h3 := RelO.get hargs "R_eq"
  have hn := H.norm hx
  have hx1 := hx.x; have hx2 := hx.y; have hx3 := hx.z
  unfold Adx.j3_acc
  revert h1 h2 h3
  rcases args.get "mu" with e | mu <;> rcases args'.get "mu" with e' | mu' <;> intro h1 <;> try exact h1.elim
  · exact fun _ _ => h1
  rcases args.get "J3" with e | J <;> rcases args'.get "J3" with e' | J' <;> intro h2 <;> try exact h2.elim
  · exact fun _ => h2
  rcases args.get "R_eq" with e | Q <;> rcases args'.get "R_eq" with e' | Q' <;> intro h3 <;> try exact h3.elim
  · exact h3
  have h1 : R mu mu' := h1
  have h2 : R J J' := h2
  have h3 : R Q Q' := h3
  refine ⟨?_, ?_, ?_⟩ <;> par H

theorem j4_acc : RelE (RelV R) (Adx.j4_acc t x args) (Adx.j4_acc t' x' args') := by
  have h1 := RelO.get hargs "mu"
  have h2 := RelO.get hargs "J4"
  have h3 := RelO.get hargs "R_eq"
  have hn := H.norm hx
  have hx1 := hx.x; have hx2 := hx.y; have hx3 := hx.z
  unfold Adx.j4_acc
  revert h1 h2 h3
  rcases args.get "mu" with e | mu <;> rcases args'.get "mu" with e' | mu' <;> intro h1 <;> try exact h1.elim
  · exact fun _ _ => h1
  rcases args.get "J4" with e | J <;> rcases args'.get "J4" with e' | J' <;> intro h2 <;> try exact h2.elim
  · exact fun _ => h2
  rcases args.get "R_eq" with e | Q <;> rcases args'.get "R_eq" with e' | Q' <;> intro h3 <;> try exact h3.elim
  · exact h3
  have h1 : R mu mu' := h1
  have h2 : R J J' := h2
  have h3 : R Q Q' := h3
  refine ⟨?_, ?_, ?_⟩ <;> par H

theorem radius_islow : RelE R (Adx.radius_islow t x args) (Adx.radius_islow t' x' args') := by
  have h1 := RelO.get hargs "rmin"
  have hn := H.norm hx
  unfold Adx.radius_islow
  revert h1
  rcases args.get "rmin" with e | mu <;> rcases args'.get "rmin" with e' | mu' <;> intro h1 <;> try exact h1.elim
  · exact h1
  · have h1 : R mu mu' := h1
    exact H.sub hn h1

end Gravity

/-! ### Solvers -/

/-- Related loop states: same counter. -/
def _root_.Adx.RelCarry (R : α → β → Prop) (c : Carry α) (d : Carry β) : Prop :=
  c.1 = d.1 ∧ R c.2.1 d.2.1 ∧ R c.2.2 d.2.2

omit H [Add α] [Sub α] [Neg α] [Mul α] [Div α] [Pow α ℕ] [NatCast α] [JFun α]
  [Add β] [Sub β] [Neg β] [Mul β] [Div β] [Pow β ℕ] [NatCast β] [JFun β] in
theorem _root_.Adx.relO_loop {c1 : Carry α → Bool} {b1 : Carry α → Carry α} {c2 : Carry β → Bool} {b2 : Carry β → Carry β}
    (hc : ∀ s t, RelCarry R s t → c1 s = c2 t) (hb : ∀ s t, RelCarry R s t → RelCarry R (b1 s) (b2 t))
    {s : Carry α} {t : Carry β} (h : RelCarry R s t) {s' : Carry α} (hs : whileLoop c1 b1 s = some s') :
    RelO R ((whileLoop c1 b1 s).map (·.2.1)) ((whileLoop c2 b2 t).map (·.2.1)) := by
  obtain ⟨t', h1, h2⟩ := whileLoop_simulate (RelCarry R) hc hb h hs
  rw [hs, h1]
  exact h2.2.1

theorem solve_kepler_elps {M e tol : α} {M' e' tol' : β} (hM : R M M') (he : R e e') (ht : R tol tol') (n : ℕ) :
    RelO R (Adx.solve_kepler_elps M e tol n) (Adx.solve_kepler_elps M' e' tol' n) := by
  have h0 : R (elpsStart M e) (elpsStart M' e') := by unfold elpsStart; par H
  obtain ⟨_, _, h, -⟩ := C13_elps M e tol n
  refine relO_loop (fun s t h => ?_) (fun s t h => ?_) ⟨rfl, h0, H.add h0 (H.mul (H.cast 2) ht)⟩ h
  · have h1 := h.2.1
    have h2 := h.2.2
    have : R (JFun.abs (s.2.1 - s.2.2)) (JFun.abs (t.2.1 - t.2.2)) := by par H
    simp only [elpsCond, H.lt ht this, h.1]
  · have h1 := h.2.1
    have h2 := H.dE h1 he
    exact ⟨by simp [elpsBody, h.1], by simp only [elpsBody]; par H, h1⟩

theorem solve_kepler_hypb {N e tol : α} {N' e' tol' : β} (hN : R N N') (he : R e e') (ht : R tol tol') (n : ℕ) :
    RelO R (Adx.solve_kepler_hypb N e tol n) (Adx.solve_kepler_hypb N' e' tol' n) := by
  have h0 : R (hypbStart N e) (hypbStart N' e') := by unfold hypbStart; par H
  obtain ⟨_, _, h, -⟩ := C13_hypb N e tol n
  refine relO_loop (fun s t h => ?_) (fun s t h => ?_) ⟨rfl, h0, H.add h0 (H.mul (H.cast 2) ht)⟩ h
  · simp only [hypbCond, H.lt ht (H.abs (H.kepler_equ_hypb h.2.1 he hN)), h.1]
  · have h1 := h.2.1
    have h2 := H.dH h1 he
    have h3 := H.kepler_equ_hypb h1 he hN
    exact ⟨by simp [hypbBody, h.1], by simp only [hypbBody]; par H, h1⟩

theorem solve_kepler_uni {t a r s mu tol : α} {t' a' r' s' mu' tol' : β} (ht : R t t') (ha : R a a') (hr : R r r')
    (hs : R s s') (hmu : R mu mu') (htol : R tol tol') (n : ℕ) :
    RelO R (Adx.solve_kepler_uni t a r s mu tol n) (Adx.solve_kepler_uni t' a' r' s' mu' tol' n) := by
  have h0 : R (uniStart t a mu) (uniStart t' a' mu') := by unfold uniStart; par H
  obtain ⟨_, _, h, -⟩ := C13_uni t a r s mu tol n
  refine relO_loop (fun s t h => ?_) (fun s t h => ?_) ⟨rfl, h0, H.add h0 (H.mul (H.cast 2) htol)⟩ h
  · simp only [uniCond, H.lt htol (H.abs (H.kepler_equ_uni h.2.1 ha hr hs ht hmu)), h.1]
  · have h1 := h.2.1
    have h2 := H.dchi h1 ha hr hs
    have h3 := H.kepler_equ_uni h1 ha hr hs ht hmu
    exact ⟨by simp [uniBody, h.1], by simp only [uniBody]; par H, h1⟩

theorem keplerStep {c a k s mu : α} {c' a' k' s' mu' : β} {r v : V3 α} {r' v' : V3 β} (hc : R c c') (ha : R a a')
    (hk : R k k') (hs : R s s') (hr : RelV R r r') (hv : RelV R v v') (hmu : R mu mu') :
    RelV R (Adx.keplerStep c a k s r v mu).1 (Adx.keplerStep c' a' k' s' r' v' mu').1 ∧
    RelV R (Adx.keplerStep c a k s r v mu).2 (Adx.keplerStep c' a' k' s' r' v' mu').2 := by
  have u0 := H.ufunc0 hc ha
  have u1 := H.ufunc1 hc ha
  have u2 := H.ufunc2 hc ha
  have hrr := H.equ_of_orb_uvi u0 u1 u2 hk hs
  exact ⟨H.vadd (H.smul hr (H.lagrange_F u2 hk)) (H.smul hv (H.lagrange_G u1 u2 hs hk hmu)),
    H.vadd (H.smul hr (H.lagrange_Ft u1 hrr hk hmu)) (H.smul hv (H.lagrange_Gt u2 hrr))⟩

theorem chiOf {t a r s mu : α} {t' a' r' s' mu' : β} (ht : R t t') (ha : R a a') (hr : R r r')
    (hs : R s s') (hmu : R mu mu') : R (Adx.chiOf t a r s mu) (Adx.chiOf t' a' r' s' mu') := by
  have h : RelO R (Adx.solve_kepler_uni t a r s mu) (Adx.solve_kepler_uni t' a' r' s' mu') :=
    H.solve_kepler_uni ht ha hr hs hmu (H.div (H.cast 1) (H.cast 1000000)) 50
  rw [solve_eq_chiOf t a r s mu, solve_eq_chiOf t' a' r' s' mu'] at h
  exact h

/-- `kepler`, one row. -/
theorem keplerRow {r v : V3 α} {r' v' : V3 β} {t mu : α} {t' mu' : β} (hr : RelV R r r') (hv : RelV R v v')
    (hmu : R mu mu') (ht : R t t') :
    RelV R (Adx.keplerRow r v mu t).1 (Adx.keplerRow r' v' mu' t').1 ∧
    RelV R (Adx.keplerRow r v mu t).2 (Adx.keplerRow r' v' mu' t').2 := by
  have hk := H.norm hr
  have ha := H.div (H.cast 1) (H.semimajor_axis hk (H.norm hv) hmu)
  have hs := H.sigma_fn hr hv hmu
  exact H.keplerStep (H.chiOf ht (H.item ha) (H.item hk) (H.item hs) hmu) ha hk hs hr hv hmu

end Compat
end Adx
