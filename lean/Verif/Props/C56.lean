import Verif.Lemmas.Batch

/-! # C56: the vector functions act vector by vector on batches

Arrays of shape `(..., 3)` are batches of vectors; the array functions of `Model/NDVec.lean` are compared with
the single-orbit functions of the model. Nothing is assumed of the scalar arithmetic `α`. -/

set_option linter.unusedSectionVars false

namespace Adx
open Spec

variable {α : Type} [Add α] [Sub α] [Neg α] [Mul α] [Div α] [Pow α ℕ] [NatCast α] [JFun α]

/-! ### the parameter `mu` -/

section
variable {ι : Type} {sh : ι → List ℕ} {V W : List ι} {x y z : Arr α} {u v : (ι → ℕ → ℕ) → V3 α}
  {k m : (ι → ℕ → ℕ) → α}

/-- `mu` as a scalar or as an array with a last axis of length 1. -/
def MuCol (sh : ι → List ℕ) (W : List ι) (x : Arr α) (m : (ι → ℕ → ℕ) → α) : Prop :=
  KElem sh W x m ∨ ∃ a, W = [] ∧ x = Arr.scalar a ∧ m = fun _ => a

theorem MuCol.un (f : α → α) (h : MuCol sh W x m) : MuCol sh W (Arr.un f x) fun κ => f (m κ) := by
  rcases h with h | ⟨a, rfl, rfl, rfl⟩
  · exact Or.inl (TElem.un f h)
  · exact Or.inr ⟨f a, rfl, rfl, rfl⟩

theorem TElem.binScalar {c : ℕ} {g : (ι → ℕ → ℕ) → ℕ → α} (f : α → α → α) (h : TElem sh V c x g) (a : α) :
    TElem sh V c (Arr.bin f x (Arr.scalar a)) fun κ j => f (g κ j) a where
  loc := h.loc.map fun b j => f (b j) a
  bc := h.bc.map
    (by
      rintro A rfl s ⟨h1, h2⟩
      have hb : bshape A.shape [] = some A.shape := by
        rw [bshape_some]; exact ⟨by simp, fun k => by rw [dimR_of_le (s := []) (by simp)]; exact bdim_one _⟩
      refine ⟨⟨A.shape, fun idx => f (A.get (opIdx A.shape idx)) a⟩, by simp only [Arr.bin, Arr.scalar, hb], h1, ?_⟩
      intro idx hi j hj
      have : InShape A.shape (icons j idx) := by rw [h1]; exact inShape_tail.2 ⟨hj, hi⟩
      simp only [opIdx_self this, h2 idx hi j hj])
    (by rintro e rfl; exact ⟨e, rfl⟩)

theorem VElem.divMu (h : VElem sh V x u) (hm : MuCol sh W y m) : VElem sh (V ++ W) (x / y) fun κ => u κ / m κ := by
  rcases hm with hm | ⟨a, rfl, rfl, rfl⟩
  · exact VElem.divK h hm
  · rw [List.append_nil]
    exact (TElem.binScalar (· / ·) h a).ext ((vloc h).map fun b => comp3 (b / a)) fun _ => lt3 rfl rfl rfl

theorem KElem.divMu (h : KElem sh V x k) (hm : MuCol sh W y m) : KElem sh (V ++ W) (x / y) fun κ => k κ / m κ := by
  rcases hm with hm | ⟨a, rfl, rfl, rfl⟩
  · exact KElem.bin (· / ·) h hm
  · rw [List.append_nil]; exact TElem.binScalar (· / ·) h a

/-! ### the functions, for operands of any kind -/

theorem VElem.angular_momentum (hx : VElem sh V x u) (hy : VElem sh W y v) :
    VElem sh (V ++ W) (angular_momentumA x y) fun κ => Adx.angular_momentum (u κ) (v κ) := VElem.cross hx hy

theorem VElem.eccentricity_vector {X : List ι} (hx : VElem sh V x u) (hy : VElem sh W y v) (hm : MuCol sh X z m) :
    VElem sh (V ++ W ++ X) (eccentricity_vectorA x y z) fun κ => Adx.eccentricity_vector (u κ) (v κ) (m κ) :=
  (((hy.cross (VElem.angular_momentum hx hy)).divMu hm).sub (VElem.divK hx hx.norm)).congr (by simp; tauto)

theorem VElem.sigma_fn {X : List ι} (hx : VElem sh V x u) (hy : VElem sh W y v) (hm : MuCol sh X z m) :
    KElem sh (V ++ W ++ X) (sigma_fnA x y z) fun κ => Adx.sigma_fn (u κ) (v κ) (m κ) :=
  KElem.divMu (VElem.dot hx hy) (hm.un JFun.sqrt)

theorem VElem.inclination (hx : VElem sh V x u) :
    KElem sh V (inclinationA x) fun κ => Adx.inclination (u κ) :=
  (TElem.un JFun.arccos (KElem.bin (· / ·) (hx.slice1 (j := 2) (by omega)) hx.norm)).congr (by simp)

theorem VElem.angle (hx : VElem sh V x u) (hy : VElem sh W y v) :
    KElem sh (V ++ W) (Arr.un wrapNeg (JFun.arctan2 (Arr.normLast (Arr.cross x y)) (Arr.sumLast (x * y))))
      fun κ => wrapNeg (JFun.arctan2 (V3.norm (V3.cross (u κ) (v κ))) (V3.dot (u κ) (v κ))) :=
  (TElem.un wrapNeg (KElem.bin JFun.arctan2 (hx.cross hy).norm (VElem.dot hx hy))).congr (by simp; tauto)

theorem VElem.kHat : VElem sh [] (Adx.kHat : Arr α) fun _ => ⟨ℓ 0, ℓ 0, ℓ 1⟩ :=
  TElem.const rfl _ fun j _ => match j with
    | 0 => rfl
    | 1 => rfl
    | _ + 2 => rfl

theorem VElem.node_vec (hx : VElem sh V x u) : VElem sh V (node_vecA x) fun κ => Adx.node_vec (u κ) :=
  VElem.cross VElem.kHat hx

theorem VElem.right_ascension (hx : VElem sh V x u) :
    KElem sh V (right_ascensionA x) fun κ => Adx.right_ascension (u κ) :=
  (TElem.un wrapNeg (KElem.bin JFun.arctan2 (hx.slice1 (j := 1) (by omega)) (hx.slice1 (j := 0) (by omega)))).congr
    (by simp)

theorem HElem.rotmat3dx (hx : HElem sh V x k) : QElem sh V (rotmat3dxA x) fun κ => Adx.rotmat3dx (k κ) :=
  QElem.stack (VElem.stack (hx.un _) (hx.un _) (hx.un _)) (VElem.stack (hx.un _) (hx.un _) ((hx.un _).un _))
    (VElem.stack (hx.un _) (hx.un _) (hx.un _))
theorem HElem.rotmat3dy (hx : HElem sh V x k) : QElem sh V (rotmat3dyA x) fun κ => Adx.rotmat3dy (k κ) :=
  QElem.stack (VElem.stack (hx.un _) (hx.un _) (hx.un _)) (VElem.stack (hx.un _) (hx.un _) (hx.un _))
    (VElem.stack ((hx.un _).un _) (hx.un _) (hx.un _))
theorem HElem.rotmat3dz (hx : HElem sh V x k) : QElem sh V (rotmat3dzA x) fun κ => Adx.rotmat3dz (k κ) :=
  QElem.stack (VElem.stack (hx.un _) ((hx.un _).un _) (hx.un _)) (VElem.stack (hx.un _) (hx.un _) (hx.un _))
    (VElem.stack (hx.un _) (hx.un _) (hx.un _))
end

/-- The operands: batch shapes of three arguments. -/
abbrev sh3 (a b c : List ℕ) : Fin 3 → List ℕ := ![a, b, c]

/-! ### single functions -/

/-- C56: `angular_momentum` of batches of positions and velocities is the batch of angular momenta. -/
theorem C56_angular_momentum (P V : ND (V3 α)) :
    IsBatchV [P.shape, V.shape] (angular_momentumA (.ok (vecs P)) (.ok (vecs V)))
      fun idx => angular_momentum (ND.at P idx) (ND.at V idx) :=
  (VElem.angular_momentum (TElem.vecs (sh := ![P.shape, V.shape]) 0 P rfl) (TElem.vecs 1 V rfl)).isBatchV

/-- C56: `eccentricity_vector` with one `mu` per orbit (an array of shape `(..., 1)`). -/
theorem C56_eccentricity_vector (P V : ND (V3 α)) (M : ND α) :
    IsBatchV [P.shape, V.shape, M.shape] (eccentricity_vectorA (.ok (vecs P)) (.ok (vecs V)) (.ok (keep M)))
      fun idx => eccentricity_vector (ND.at P idx) (ND.at V idx) (ND.at M idx) :=
  (VElem.eccentricity_vector (TElem.vecs (sh := sh3 P.shape V.shape M.shape) 0 P rfl) (TElem.vecs 1 V rfl)
    (Or.inl (TElem.keep 2 M rfl))).isBatchV

/-- C56: `eccentricity_vector` with a scalar `mu`. -/
theorem C56_eccentricity_vector_scalar (P V : ND (V3 α)) (mu : α) :
    IsBatchV [P.shape, V.shape] (eccentricity_vectorA (.ok (vecs P)) (.ok (vecs V)) (Arr.scalar mu))
      fun idx => eccentricity_vector (ND.at P idx) (ND.at V idx) mu :=
  (VElem.eccentricity_vector (TElem.vecs (sh := ![P.shape, V.shape]) 0 P rfl) (TElem.vecs 1 V rfl)
    (Or.inr ⟨mu, rfl, rfl, rfl⟩)).isBatchV

/-- C56: `sigma_fn` with one `mu` per orbit. -/
theorem C56_sigma_fn (P V : ND (V3 α)) (M : ND α) :
    IsBatchK [P.shape, V.shape, M.shape] (sigma_fnA (.ok (vecs P)) (.ok (vecs V)) (.ok (keep M)))
      fun idx => sigma_fn (ND.at P idx) (ND.at V idx) (ND.at M idx) :=
  (VElem.sigma_fn (TElem.vecs (sh := sh3 P.shape V.shape M.shape) 0 P rfl) (TElem.vecs 1 V rfl)
    (Or.inl (TElem.keep 2 M rfl))).isBatchK

/-- C56: `sigma_fn` with a scalar `mu`. -/
theorem C56_sigma_fn_scalar (P V : ND (V3 α)) (mu : α) :
    IsBatchK [P.shape, V.shape] (sigma_fnA (.ok (vecs P)) (.ok (vecs V)) (Arr.scalar mu))
      fun idx => sigma_fn (ND.at P idx) (ND.at V idx) mu :=
  (VElem.sigma_fn (TElem.vecs (sh := ![P.shape, V.shape]) 0 P rfl) (TElem.vecs 1 V rfl)
    (Or.inr ⟨mu, rfl, rfl, rfl⟩)).isBatchK

/-- C56: `inclination`. -/
theorem C56_inclination (H : ND (V3 α)) :
    IsBatchK [H.shape] (inclinationA (.ok (vecs H))) fun idx => inclination (ND.at H idx) :=
  (VElem.inclination (TElem.vecs (sh := ![H.shape]) 0 H rfl)).isBatchK

/-- C56: `true_anomaly`. -/
theorem C56_true_anomaly (P E : ND (V3 α)) :
    IsBatchK [P.shape, E.shape] (true_anomalyA (.ok (vecs P)) (.ok (vecs E)))
      fun idx => true_anomaly (ND.at P idx) (ND.at E idx) :=
  (TElem.congr (VElem.angle (TElem.vecs (sh := ![P.shape, E.shape]) 1 E rfl) (TElem.vecs 0 P rfl)) (W := [0, 1])
    (by simp)).isBatchK

/-- C56: `node_vec`. -/
theorem C56_node_vec (H : ND (V3 α)) :
    IsBatchV [H.shape] (node_vecA (.ok (vecs H))) fun idx => node_vec (ND.at H idx) :=
  (VElem.node_vec (TElem.vecs (sh := ![H.shape]) 0 H rfl)).isBatchV

/-- C56: `right_ascension`. -/
theorem C56_right_ascension (N : ND (V3 α)) :
    IsBatchK [N.shape] (right_ascensionA (.ok (vecs N))) fun idx => right_ascension (ND.at N idx) :=
  (VElem.right_ascension (TElem.vecs (sh := ![N.shape]) 0 N rfl)).isBatchK

/-- C56: `argument_of_periapsis`. -/
theorem C56_argument_of_periapsis (N E : ND (V3 α)) :
    IsBatchK [N.shape, E.shape] (argument_of_periapsisA (.ok (vecs N)) (.ok (vecs E)))
      fun idx => argument_of_periapsis (ND.at N idx) (ND.at E idx) :=
  (VElem.angle (TElem.vecs (sh := ![N.shape, E.shape]) 0 N rfl) (TElem.vecs 1 E rfl)).isBatchK

/-- C56: `rotmat3dx`, `rotmat3dy`, `rotmat3dz` of an array of angles are the arrays of matrices. -/
theorem C56_rotmat (A : ND α) :
    IsBatchM [A.shape] (rotmat3dxA (.ok A)) (fun idx => rotmat3dx (ND.at A idx)) ∧
    IsBatchM [A.shape] (rotmat3dyA (.ok A)) (fun idx => rotmat3dy (ND.at A idx)) ∧
    IsBatchM [A.shape] (rotmat3dzA (.ok A)) (fun idx => rotmat3dz (ND.at A idx)) :=
  ⟨(HElem.rotmat3dx (HElem.var (sh := ![A.shape]) 0 A rfl)).isBatchM,
    (HElem.rotmat3dy (HElem.var (sh := ![A.shape]) 0 A rfl)).isBatchM,
    (HElem.rotmat3dz (HElem.var (sh := ![A.shape]) 0 A rfl)).isBatchM⟩

/-! ### `rv2coe` -/

/-- `x` returns six arrays: the semiparameter, eccentricity, argument of periapsis and true anomaly have the
broadcast shape of `shapes`, inclination and right ascension that of `shapes'` only; the entries are `g idx`. -/
structure IsCoeBatch (shapes shapes' : List (List ℕ)) (x : Except BErr (COE (ND α))) (g : (ℕ → ℕ) → COE α) :
    Prop where
  ok : ∀ s t, IsBroadcast shapes s → IsBroadcast shapes' t → ∃ c : COE (ND α), x = .ok c ∧
    (c.p.shape = s ∧ c.e.shape = s ∧ c.incl.shape = t ∧ c.raan.shape = t ∧ c.argp.shape = s ∧ c.true_anom.shape = s) ∧
    (∀ idx, InShape s idx → c.p.get idx = (g idx).p ∧ c.e.get idx = (g idx).e ∧ c.argp.get idx = (g idx).argp ∧
      c.true_anom.get idx = (g idx).true_anom) ∧
    ∀ idx, InShape t idx → c.incl.get idx = (g idx).incl ∧ c.raan.get idx = (g idx).raan
  err : (¬ ∃ s, IsBroadcast shapes s) → ∃ e, x = .error e

theorem coeResult_error {p e i r w f : Arr α} (h : (∃ a, p = .error a) ∨ (∃ a, e = .error a)) :
    ∃ a, coeResult p e i r w f = .error a := by
  rcases h with ⟨a, rfl⟩ | ⟨a, rfl⟩
  · exact ⟨a, rfl⟩
  · rcases p with b | b
    · exact ⟨b, rfl⟩
    · exact ⟨a, rfl⟩

theorem rv2coe_batch {ι : Type} {sh : ι → List ℕ} {V W X : List ι} {x y z : Arr α} {u v : (ι → ℕ → ℕ) → V3 α}
    {m : (ι → ℕ → ℕ) → α} (hx : VElem sh V x u) (hy : VElem sh W y v) (hm : MuCol sh X z m) :
    IsCoeBatch ((V ++ W ++ X).map sh) ((V ++ W).map sh) (rv2coeA x y z)
      fun idx => rv2coe (u (ops sh idx)) (v (ops sh idx)) (m (ops sh idx)) := by
  have hh := VElem.angular_momentum hx hy
  have he := VElem.eccentricity_vector hx hy hm
  have hp : KElem sh (V ++ W ++ X) (semiparameter (Arr.normLast (angular_momentumA x y)) z) _ :=
    KElem.divMu (k := fun κ => V3.norm (angular_momentum (u κ) (v κ)) ^ 2) (TElem.un (· ^ 2) hh.norm) hm
  have hN := VElem.node_vec hh
  have hw := TElem.congr (VElem.angle hN he) (W := V ++ W ++ X) (by simp; tauto)
  have hf := TElem.congr (VElem.angle he hx) (W := V ++ W ++ X) (by simp; tauto)
  have hi := VElem.inclination hh
  have hr := VElem.right_ascension hN
  constructor
  · intro s t hs ht
    obtain ⟨p, ep, p1, p2⟩ := hp.squeezeLast.bc.ok s hs
    obtain ⟨e, ee, e1, e2⟩ := he.norm.squeezeLast.bc.ok s hs
    obtain ⟨i, ei, i1, i2⟩ := hi.squeezeLast.bc.ok t ht
    obtain ⟨r, er, r1, r2⟩ := hr.squeezeLast.bc.ok t ht
    obtain ⟨w, ew, w1, w2⟩ := hw.squeezeLast.bc.ok s hs
    obtain ⟨f, ef, f1, f2⟩ := hf.squeezeLast.bc.ok s hs
    refine ⟨⟨p, e, i, r, w, f⟩, ?_, ⟨p1, e1, i1, r1, w1, f1⟩, ?_, ?_⟩
    · show coeResult _ _ _ _ (Arr.squeezeLast (Arr.un wrapNeg _)) (Arr.squeezeLast (Arr.un wrapNeg _)) = _
      rw [ep, ee, ei, er, ew, ef]; rfl
    · exact fun idx hidx => ⟨p2 idx hidx, e2 idx hidx, w2 idx hidx, f2 idx hidx⟩
    · exact fun idx hidx => ⟨i2 idx hidx, r2 idx hidx⟩
  · intro hn
    exact coeResult_error (Or.inl (hp.squeezeLast.bc.err hn))

/-- C56: `rv2coe` with one `mu` per orbit returns the elements of every orbit of the batch. (Inclination and
right ascension do not involve `mu`, and come out with the broadcast shape of positions and velocities alone.) -/
theorem C56_rv2coe (P V : ND (V3 α)) (M : ND α) :
    IsCoeBatch [P.shape, V.shape, M.shape] [P.shape, V.shape] (rv2coeA (.ok (vecs P)) (.ok (vecs V)) (.ok (keep M)))
      fun idx => rv2coe (ND.at P idx) (ND.at V idx) (ND.at M idx) :=
  rv2coe_batch (TElem.vecs (sh := sh3 P.shape V.shape M.shape) 0 P rfl) (TElem.vecs 1 V rfl)
    (Or.inl (TElem.keep 2 M rfl))

/-- C56: `rv2coe` with a scalar `mu`. -/
theorem C56_rv2coe_scalar (P V : ND (V3 α)) (mu : α) :
    IsCoeBatch [P.shape, V.shape] [P.shape, V.shape] (rv2coeA (.ok (vecs P)) (.ok (vecs V)) (Arr.scalar mu))
      fun idx => rv2coe (ND.at P idx) (ND.at V idx) mu :=
  rv2coe_batch (TElem.vecs (sh := ![P.shape, V.shape]) 0 P rfl) (TElem.vecs 1 V rfl) (Or.inr ⟨mu, rfl, rfl, rfl⟩)

/-- C56: a `mu` whose last axis has length 3 is not one parameter per orbit: `eccentricity_vector` does not reject
it, it divides the three components by three different numbers. -/
theorem C56_mu_last_axis_3 (P V M : ND (V3 α)) :
    IsBatchV [P.shape, V.shape, M.shape] (eccentricity_vectorA (.ok (vecs P)) (.ok (vecs V)) (.ok (vecs M)))
      (fun idx => ⟨(eccentricity_vector (ND.at P idx) (ND.at V idx) (ND.at M idx).x).x,
        (eccentricity_vector (ND.at P idx) (ND.at V idx) (ND.at M idx).y).y,
        (eccentricity_vector (ND.at P idx) (ND.at V idx) (ND.at M idx).z).z⟩) ∧
    ∃ e, rv2coeA (.ok (vecs P)) (.ok (vecs V)) (.ok (vecs M)) = .error e := by
  have hx : VElem (sh3 P.shape V.shape M.shape) _ _ fun κ => P.get (κ 0) := TElem.vecs 0 P rfl
  have hy : VElem (sh3 P.shape V.shape M.shape) _ _ fun κ => V.get (κ 1) := TElem.vecs 1 V rfl
  have hz : VElem (sh3 P.shape V.shape M.shape) _ _ fun κ => M.get (κ 2) := TElem.vecs 2 M rfl
  have hh := VElem.angular_momentum hx hy
  have key := (((VElem.cross hy hh).bin (· / ·) hz).sub (VElem.divK hx hx.norm)).congr (W := [0, 1, 2]) (by simp; tauto)
  refine ⟨key.isBatchV, ?_⟩
  have hp : TElem _ _ 3 (semiparameter (Arr.normLast (angular_momentumA (.ok (vecs P)) (.ok (vecs V)))) (.ok (vecs M))) _ :=
    TElem.bin (· / ·) (TElem.un (· ^ 2) hh.norm) hz (n := 3) rfl
  exact coeResult_error (Or.inl (hp.squeezeLast_error (by omega)))

/-! ### `coe2rv` -/

/-- Six elements and `mu`. -/
abbrev sh7 (p e i r w f m : List ℕ) : Fin 7 → List ℕ := ![p, e, i, r, w, f, m]

theorem HElem.weaken {ι γ : Type} {sh : ι → List ℕ} {V W : List ι} {x : Arr γ} {g : (ι → ℕ → ℕ) → γ}
    (h : HElem sh V x g) (hVW : ∀ i ∈ V, i ∈ W) (hs : ∀ s, IsBroadcast (W.map sh) s ↔ IsBroadcast (V.map sh) s) :
    HElem sh W x g where
  loc := fun κ κ' hk => h.loc κ κ' fun i hi => hk i (hVW i hi)
  bc := ⟨fun s hs' => h.bc.ok s ((hs s).1 hs'), fun hn => h.bc.err fun ⟨s, h'⟩ => hn ⟨s, (hs s).2 h'⟩⟩

theorem matmul_error {x y : Arr α} {e : BErr} (h : y = .error e) : ∃ e, Arr.matmul x y = .error e := by
  subst h
  rcases x with a | a
  · exact ⟨a, rfl⟩
  · exact ⟨e, rfl⟩

theorem bin_error {f : α → α → α} {x y : Arr α} (h : ∃ e, y = .error e) : ∃ e, Arr.bin f x y = .error e := by
  obtain ⟨e, rfl⟩ := h
  rcases x with a | a
  · exact ⟨a, rfl⟩
  · exact ⟨e, rfl⟩

/-- C56: `coe2rv` on arrays, when `e` broadcasts into the shape of `true_anom`: every orbit of the batch. -/
theorem C56_coe2rv_partial (p e i r w f M : ND α) (hef : IsBroadcast [e.shape, f.shape] f.shape) :
    IsBatchV [r.shape, i.shape, w.shape, p.shape, e.shape, f.shape]
      (coe2rvA (.ok p) (.ok e) (.ok i) (.ok r) (.ok w) (.ok f) (.ok M)).1
      (fun idx => (coe2rv (ND.at p idx) (ND.at e idx) (ND.at i idx) (ND.at r idx) (ND.at w idx) (ND.at f idx)
        (ND.at M idx)).1) ∧
    IsBatchV [r.shape, i.shape, w.shape, M.shape, p.shape, e.shape, f.shape]
      (coe2rvA (.ok p) (.ok e) (.ok i) (.ok r) (.ok w) (.ok f) (.ok M)).2
      (fun idx => (coe2rv (ND.at p idx) (ND.at e idx) (ND.at i idx) (ND.at r idx) (ND.at w idx) (ND.at f idx)
        (ND.at M idx)).2) := by
  let sh := sh7 p.shape e.shape i.shape r.shape w.shape f.shape M.shape
  have vp := HElem.var (sh := sh) 0 p rfl
  have ve := HElem.var (sh := sh) 1 e rfl
  have vi := HElem.var (sh := sh) 2 i rfl
  have vr := HElem.var (sh := sh) 3 r rfl
  have vw := HElem.var (sh := sh) 4 w rfl
  have vf := HElem.var (sh := sh) 5 f rfl
  have vm := HElem.var (sh := sh) 6 M rfl
  have one : HElem sh [] ((1 : ℕ) : Arr α) (fun _ => ((1 : ℕ) : α)) := HElem.const _
  have hw : ∀ {x : Arr α} {g : (Fin 7 → ℕ → ℕ) → α}, HElem sh [5] x g → HElem sh [1, 5] x g := by
    intro x g h
    refine h.weaken (by simp) fun s => ?_
    show IsBroadcast [e.shape, f.shape] s ↔ IsBroadcast [f.shape] s
    constructor
    · intro hs; rw [hs.unique hef]; exact isBroadcast_single _
    · intro hs; rw [hs.unique (isBroadcast_single _)]; exact hef
  have hR := (HElem.rotmat3dz vr).mul (HElem.rotmat3dx vi) |>.mul (HElem.rotmat3dz vw)
  have hrpf := KElem.mulV (HElem.bin (· / ·) vp (HElem.bin (· + ·) one (HElem.bin (· * ·) ve (vf.un JFun.cos)))).expandLast
    (VElem.stack (vf.un JFun.cos) (vf.un JFun.sin) (vf.un fun _ => ((0 : ℕ) : α)))
  have hvpf := KElem.mulV ((HElem.bin (· / ·) vm vp).un JFun.sqrt).expandLast
    (VElem.stack (hw ((vf.un JFun.sin).un (- ·))) (HElem.bin (· + ·) ve (vf.un JFun.cos))
      (hw (vf.un fun _ => ((0 : ℕ) : α))))
  exact ⟨((QElem.mulVec hR hrpf).congr (W := [3, 2, 4, 0, 1, 5]) (by simp)).isBatchV,
    ((QElem.mulVec hR hvpf).congr (W := [3, 2, 4, 6, 0, 1, 5]) (by simp)).isBatchV⟩

/-- C56: in all other cases `coe2rv` raises. -/
theorem C56_coe2rv_raises (p e i r w f M : ND α) (hef : ¬ IsBroadcast [e.shape, f.shape] f.shape) :
    ∃ err, (coe2rvA (.ok p) (.ok e) (.ok i) (.ok r) (.ok w) (.ok f) (.ok M)).2 = .error err := by
  have hst : ∃ err, Arr.stack3 (-JFun.sin (.ok f : Arr α)) (.ok e + JFun.cos (.ok f : Arr α))
      (Arr.zerosLike (.ok f)) = .error err := by
    show ∃ err, Arr.stack3 (.ok ⟨f.shape, _⟩) (Arr.bin (· + ·) (.ok e) (.ok ⟨f.shape, _⟩)) (.ok ⟨f.shape, _⟩) = _
    cases hb : bshape e.shape f.shape with
    | none => exact ⟨.incompatible, by simp only [Arr.bin, hb]; rfl⟩
    | some s =>
      refine ⟨.badShape, ?_⟩
      have hs : IsBroadcast [e.shape, f.shape] s :=
        ((isBroadcast_single e.shape).append (isBroadcast_single f.shape)).2 hb
      have : ¬ (f.shape = s ∧ s = f.shape) := by
        rintro ⟨h, -⟩; exact hef (by rw [← h] at hs; exact hs)
      simp only [Arr.bin, hb, Arr.stack3, this, if_false]
  have hv := bin_error (f := (· * ·)) (x := Arr.expandLast (JFun.sqrt ((.ok M : Arr α) / .ok p))) hst
  obtain ⟨e1, h1⟩ := hv
  have hm : ∃ e', Arr.matmul (Arr.matmul (Arr.matmul (rotmat3dzA (.ok r)) (rotmat3dxA (.ok i))) (rotmat3dzA (.ok w)))
      (Arr.expandLast (Arr.expandLast (JFun.sqrt ((.ok M : Arr α) / .ok p)) * Arr.stack3 (-JFun.sin (.ok f : Arr α))
        (.ok e + JFun.cos (.ok f : Arr α)) (Arr.zerosLike (.ok f)))) = .error e' := by
    apply matmul_error (e := e1)
    show Arr.expandLast (Arr.bin (· * ·) _ _) = _
    rw [h1]; rfl
  obtain ⟨e2, h2⟩ := hm
  refine ⟨e2, ?_⟩
  show Arr.squeezeLast _ = _
  rw [h2]; rfl

/-- C56 as documented ("shape broadcast-compatible with …") fails: two eccentricities with one true anomaly have
broadcast-compatible shapes, and `coe2rv` raises. -/
theorem C56_coe2rv_refuted : ¬ ∀ p e i r w f M : ND α,
    (∃ s, IsBroadcast [p.shape, e.shape, i.shape, r.shape, w.shape, f.shape, M.shape] s) →
    ∃ R V, coe2rvA (.ok p) (.ok e) (.ok i) (.ok r) (.ok w) (.ok f) (.ok M) = (.ok R, .ok V) := by
  intro h
  let c : ND α := ⟨[], fun _ => ((1 : ℕ) : α)⟩
  let e : ND α := ⟨[2], fun _ => ((1 : ℕ) : α)⟩
  obtain ⟨R, V, hRV⟩ := h c e c c c c c ⟨[2], by
    refine ⟨by simp [c, e], Or.inr ⟨[2], by simp [e], rfl⟩, fun k hk => ?_⟩
    have : k = 0 := by simpa using hk
    subst this
    exact ⟨by simp [c, e, dimR], [2], by simp [e], rfl⟩⟩
  obtain ⟨err, he⟩ := C56_coe2rv_raises c e c c c c c (by
    intro hh
    have := hh.1 [2] (by simp [e])
    simp [c] at this)
  rw [hRV] at he
  simp at he

/-! ### `kepler` -/

section
variable {ι : Type} {sh : ι → List ℕ} {V W : List ι} {x y : Arr α} {g h : (ι → ℕ → ℕ) → α}

theorem HElem.lit (n : ℕ) : HElem sh [] ((n : ℕ) : Arr α) (fun _ => (n : α)) := HElem.const _
theorem HElem.add (a : HElem sh V x g) (b : HElem sh W y h) : HElem sh (V ++ W) (x + y) fun κ => g κ + h κ := a.bin _ b
theorem HElem.sub (a : HElem sh V x g) (b : HElem sh W y h) : HElem sh (V ++ W) (x - y) fun κ => g κ - h κ := a.bin _ b
theorem HElem.mul (a : HElem sh V x g) (b : HElem sh W y h) : HElem sh (V ++ W) (x * y) fun κ => g κ * h κ := a.bin _ b
theorem HElem.div (a : HElem sh V x g) (b : HElem sh W y h) : HElem sh (V ++ W) (x / y) fun κ => g κ / h κ := a.bin _ b
theorem HElem.neg (a : HElem sh V x g) : HElem sh V (-x) fun κ => -g κ := a.un _
theorem HElem.pow (a : HElem sh V x g) (n : ℕ) : HElem sh V (x ^ n) fun κ => g κ ^ n := a.un _
theorem HElem.sqrt (a : HElem sh V x g) : HElem sh V (JFun.sqrt x) fun κ => JFun.sqrt (g κ) := a.un _
theorem HElem.sin (a : HElem sh V x g) : HElem sh V (JFun.sin x) fun κ => JFun.sin (g κ) := a.un _
theorem HElem.cos (a : HElem sh V x g) : HElem sh V (JFun.cos x) fun κ => JFun.cos (g κ) := a.un _
theorem HElem.sinh (a : HElem sh V x g) : HElem sh V (JFun.sinh x) fun κ => JFun.sinh (g κ) := a.un _
theorem HElem.cosh (a : HElem sh V x g) : HElem sh V (JFun.cosh x) fun κ => JFun.cosh (g κ) := a.un _

/-- The universal functions of an array of `chi` with a scalar `alpha`. -/
theorem HElem.ufuncs (hx : HElem sh V x g) (a : α) :
    HElem sh V (ufunc0 x (Arr.scalar a)) (fun κ => ufunc0 (g κ) a) ∧
    HElem sh V (ufunc1 x (Arr.scalar a)) (fun κ => ufunc1 (g κ) a) ∧
    HElem sh V (ufunc2 x (Arr.scalar a)) (fun κ => ufunc2 (g κ) a) := by
  have l1 : JFun.lt ((0 : ℕ) : Arr α) (Arr.scalar a) = JFun.lt ((0 : ℕ) : α) a := rfl
  have l2 : JFun.lt (Arr.scalar a) ((0 : ℕ) : Arr α) = JFun.lt a ((0 : ℕ) : α) := rfl
  have ha : HElem sh [] (Arr.scalar a) (fun _ => a) := HElem.const a
  simp only [ufunc0, ufunc1, ufunc2, l1, l2]
  by_cases h1 : JFun.lt ((0 : ℕ) : α) a = true
  · simp only [h1, if_true]
    exact ⟨(ha.sqrt.mul hx).cos, ((ha.sqrt.mul hx).sin.div ha.sqrt).congr (by simp),
      (((HElem.lit 1).sub (ha.sqrt.mul hx).cos).div ha).congr (by simp)⟩
  · by_cases h2 : JFun.lt a ((0 : ℕ) : α) = true
    · simp only [h1, h2, if_true]
      exact ⟨(ha.neg.sqrt.mul hx).cosh, ((ha.neg.sqrt.mul hx).sinh.div ha.neg.sqrt).congr (by simp),
        (((ha.neg.sqrt.mul hx).cosh.sub (HElem.lit 1)).div ha.neg).congr (by simp)⟩
    · simp only [h1, h2]
      exact ⟨hx.un _, hx, ((hx.pow 2).div (HElem.lit 2)).congr (by simp)⟩
end

/-- C56: the rows of the `(n, 3)` arrays returned by `kepler` are the single propagations `keplerStep` of the entries
of `chi` (one per requested time). -/
theorem C56_kepler_rows (n : ℕ) (chi : ND α) (hn : chi.shape = [n]) (alpha r0 sigma0 mu : α) (r0_vec v0_vec : V3 α) :
    IsBatchV [[n]] (keplerPostA (.ok chi) (Arr.scalar alpha) (Arr.scalar r0) (.ok ⟨[1], fun _ => sigma0⟩)
        (Arr.scalar mu) (.ok (vecs ⟨[], fun _ => r0_vec⟩)) (.ok (vecs ⟨[], fun _ => v0_vec⟩))).1
      (fun idx => (keplerStep (ND.at chi idx) alpha r0 sigma0 r0_vec v0_vec mu).1) ∧
    IsBatchV [[n]] (keplerPostA (.ok chi) (Arr.scalar alpha) (Arr.scalar r0) (.ok ⟨[1], fun _ => sigma0⟩)
        (Arr.scalar mu) (.ok (vecs ⟨[], fun _ => r0_vec⟩)) (.ok (vecs ⟨[], fun _ => v0_vec⟩))).2
      (fun idx => (keplerStep (ND.at chi idx) alpha r0 sigma0 r0_vec v0_vec mu).2) := by
  let sh : Fin 4 → List ℕ := ![[n], [1], [], []]
  have hc : HElem sh [0] (.ok chi) (fun κ => chi.get (κ 0)) := HElem.var 0 chi hn
  have hσ : HElem sh [1] (.ok (⟨[1], fun _ => sigma0⟩ : ND α)) (fun _ => sigma0) := HElem.var 1 ⟨[1], fun _ => sigma0⟩ rfl
  have hr0 : HElem sh [] (Arr.scalar r0) (fun _ => r0) := HElem.const r0
  have hmu : HElem sh [] (Arr.scalar mu) (fun _ => mu) := HElem.const mu
  have hR : VElem sh [2] _ (fun _ => r0_vec) := TElem.vecs 2 ⟨[], fun _ => r0_vec⟩ rfl
  have hV : VElem sh [3] _ (fun _ => v0_vec) := TElem.vecs 3 ⟨[], fun _ => v0_vec⟩ rfl
  obtain ⟨u0, u1, u2⟩ := hc.ufuncs alpha
  have hF := (HElem.lit (α := α) 1).sub (u2.div hr0)
  have hG := ((hr0.mul u1).add (hσ.mul u2)).div hmu.sqrt
  have hr := ((hr0.mul u0).add (hσ.mul u1)).add u2
  have hFt := ((hmu.sqrt.neg.div hr).mul u1).div hr0
  have hGt := (HElem.lit (α := α) 1).sub (u2.div hr)
  have key1 := (VElem.add (KElem.mulV hF.expandLast hR) (KElem.mulV hG.expandLast hV)).congr (W := [0, 1, 2, 3])
    (by decide)
  have key2 := (VElem.add (KElem.mulV hFt.expandLast hR) (KElem.mulV hGt.expandLast hV)).congr (W := [0, 1, 2, 3])
    (by decide)
  have hb : ∀ s, IsBroadcast [[n]] s → IsBroadcast ([0, 1, 2, 3].map sh) s := by
    intro s hs
    rw [hs.unique (isBroadcast_single _)]
    refine ⟨by simp [sh], Or.inr ⟨[n], by simp [sh], rfl⟩, fun k hk => ?_⟩
    have : k = 0 := by simpa using hk
    subst this
    exact ⟨by simp [sh, dimR], [n], by simp [sh], rfl⟩
  have h1 := key1.isBatchV
  have h2 := key2.isBatchV
  have hop : ∀ idx, ND.at chi idx = chi.get (ops sh idx 0) := by
    intro idx; unfold ND.at; rw [hn]; rfl
  simp only [hop]
  exact ⟨⟨fun s hs => h1.ok s (hb s hs), fun hn' => absurd ⟨_, isBroadcast_single _⟩ hn'⟩,
    ⟨fun s hs => h2.ok s (hb s hs), fun hn' => absurd ⟨_, isBroadcast_single _⟩ hn'⟩⟩

/-! ### instances -/

/-- A batch of two positions against one velocity: the shapes broadcast to `(2,)`, and the function returns the two
angular momenta. -/
example (a b v : V3 ℝ) :
    ∃ A, angular_momentumA (.ok (vecs ⟨[2], fun idx => if idx 0 = 0 then a else b⟩))
        (.ok (vecs ⟨[], fun _ => v⟩)) = .ok A ∧ A.shape = [2, 3] ∧
      A.get (withLast 2 fun k => if k = 0 then 1 else 0) = (V3.cross b v).z := by
  obtain ⟨A, h1, h2, h3⟩ := (C56_angular_momentum (⟨[2], fun idx => if idx 0 = 0 then a else b⟩ : ND (V3 ℝ))
    ⟨[], fun _ => v⟩).ok [2] ⟨by simp, Or.inr ⟨[2], by simp, rfl⟩, fun k hk => by
      have : k = 0 := by simpa using hk
      subst this; exact ⟨by simp [dimR], [2], by simp, rfl⟩⟩
  refine ⟨A, h1, h2, ?_⟩
  rw [(h3 (fun k => if k = 0 then 1 else 0) ?_).2.2]
  · simp [ND.at, operandIdx, dimR, angular_momentum]
  · intro k
    rcases k with - | k <;> simp [dimR]

/-- Hypothesis of `C56_coe2rv_partial`: one eccentricity for five true anomalies. -/
example : IsBroadcast [[], [5]] [5] :=
  ⟨by simp, Or.inr ⟨[5], by simp, rfl⟩, fun k hk => by
    have : k = 0 := by simpa using hk
    subst this; exact ⟨by simp [dimR], [5], by simp, rfl⟩⟩

end Adx
