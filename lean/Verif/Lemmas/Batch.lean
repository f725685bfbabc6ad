import Verif.Model.NDVec
import Verif.Spec.Batch
import Verif.Lemmas.Broadcast

/-! # Array operations on batches of vectors

Each array operation the code applies to `(..., 3)` arrays is the broadcast of the operation on single vectors. -/

namespace Adx
open Spec

theorem dimR_append_zero (s : List ℕ) (c : ℕ) : dimR (s ++ [c]) 0 = c := by simp [dimR]
theorem dimR_append_succ (s : List ℕ) (c k : ℕ) : dimR (s ++ [c]) (k + 1) = dimR s k := by simp [dimR]

theorem bshape_append (s t : List ℕ) (c d : ℕ) :
    bshape (s ++ [c]) (t ++ [d]) = (bdim c d).bind fun e => (bshape s t).map (· ++ [e]) := by
  unfold bshape
  simp only [List.reverse_append, List.reverse_cons, List.reverse_nil, List.nil_append, List.singleton_append,
    bshapeRev, bind, pure]
  cases bdim c d with
  | none => rfl
  | some e =>
    cases bshapeRev s.reverse t.reverse with
    | none => rfl
    | some u => simp

theorem opIdx_append_succ (s : List ℕ) (c : ℕ) (idx : ℕ → ℕ) (k : ℕ) :
    opIdx (s ++ [c]) idx (k + 1) = opIdx s (itail idx) k := by
  simp only [opIdx, dimR_append_succ, itail]

theorem opIdx_append_zero (s : List ℕ) (c : ℕ) (idx : ℕ → ℕ) :
    opIdx (s ++ [c]) idx 0 = if c = 1 then 0 else idx 0 := by
  simp only [opIdx, dimR_append_zero]

theorem inShape_tail {s : List ℕ} {c : ℕ} {idx : ℕ → ℕ} : InShape (s ++ [c]) idx ↔ idx 0 < c ∧ InShape s (itail idx) := by
  constructor
  · intro h
    exact ⟨by have := h 0; rwa [dimR_append_zero] at this, fun k => by have := h (k + 1); rwa [dimR_append_succ] at this⟩
  · rintro ⟨h0, h⟩ k
    cases k with
    | zero => rwa [dimR_append_zero]
    | succ k => rw [dimR_append_succ]; exact h k

theorem opIdx_icons (s : List ℕ) (c j : ℕ) (idx : ℕ → ℕ) :
    opIdx (s ++ [c]) (icons j idx) = icons (if c = 1 then 0 else j) (opIdx s idx) := by
  funext k
  cases k with
  | zero => exact opIdx_append_zero s c _
  | succ k => exact opIdx_append_succ s c _ k

/-- The operand indices that belong to an index of the broadcast result. -/
def ops {ι : Type} (sh : ι → List ℕ) (idx : ℕ → ℕ) : ι → ℕ → ℕ := fun i => opIdx (sh i) idx

section
variable {ι α β γ : Type} {sh : ι → List ℕ}

/-- The operands `i ∈ V` (shapes `sh i`) are broadcast, and then `x` is an array satisfying `P`. -/
structure Bc (sh : ι → List ℕ) (V : List ι) (x : Arr γ) (P : List ℕ → ND γ → Prop) : Prop where
  ok : ∀ s, IsBroadcast (V.map sh) s → ∃ A : ND γ, x = .ok A ∧ P s A
  err : (¬ ∃ s, IsBroadcast (V.map sh) s) → ∃ e, x = .error e

/-- `g` depends only on the indices of the operands in `V`. -/
def Loc (V : List ι) (g : (ι → ℕ → ℕ) → γ) : Prop := ∀ κ κ', (∀ i ∈ V, κ i = κ' i) → g κ = g κ'

/-- Array without trailing axes. -/
structure HElem (sh : ι → List ℕ) (V : List ι) (x : Arr γ) (g : (ι → ℕ → ℕ) → γ) : Prop where
  loc : Loc V g
  bc : Bc sh V x fun s A => A.shape = s ∧ ∀ idx, InShape s idx → A.get idx = g (ops sh idx)

/-- Array with one trailing axis of length `c`. -/
structure TElem (sh : ι → List ℕ) (V : List ι) (c : ℕ) (x : Arr γ) (g : (ι → ℕ → ℕ) → ℕ → γ) : Prop where
  loc : Loc V g
  bc : Bc sh V x fun s A => A.shape = s ++ [c] ∧ ∀ idx, InShape s idx → ∀ j < c, A.get (icons j idx) = g (ops sh idx) j

/-- Array with two trailing axes `m`, `n`. -/
structure MElem (sh : ι → List ℕ) (V : List ι) (m n : ℕ) (x : Arr γ) (g : (ι → ℕ → ℕ) → ℕ → ℕ → γ) : Prop where
  loc : Loc V g
  bc : Bc sh V x fun s A => A.shape = s ++ [m, n] ∧
    ∀ idx, InShape s idx → ∀ i < m, ∀ j < n, A.get (icons j (icons i idx)) = g (ops sh idx) i j

theorem Bc.congr {V W : List ι} {x : Arr γ} {P : List ℕ → ND γ → Prop} (h : Bc sh V x P) (hVW : ∀ i, i ∈ V ↔ i ∈ W) :
    Bc sh W x P where
  ok := fun s hs => h.ok s ((Spec.IsBroadcast.congr (by simp [hVW])).1 hs)
  err := fun hn => h.err fun ⟨s, hs⟩ => hn ⟨s, (Spec.IsBroadcast.congr (by simp [hVW])).1 hs⟩

theorem Loc.congr {V W : List ι} {g : (ι → ℕ → ℕ) → γ} (h : Loc V g) (hVW : ∀ i, i ∈ V ↔ i ∈ W) : Loc W g :=
  fun κ κ' hh => h κ κ' fun i hi => hh i ((hVW i).1 hi)

theorem HElem.congr {V W : List ι} {x : Arr γ} {g : (ι → ℕ → ℕ) → γ} (h : HElem sh V x g)
    (hVW : ∀ i, i ∈ V ↔ i ∈ W) : HElem sh W x g := ⟨h.loc.congr hVW, h.bc.congr hVW⟩
theorem TElem.congr {V W : List ι} {c : ℕ} {x : Arr γ} {g : (ι → ℕ → ℕ) → ℕ → γ} (h : TElem sh V c x g)
    (hVW : ∀ i, i ∈ V ↔ i ∈ W) : TElem sh W c x g := ⟨h.loc.congr hVW, h.bc.congr hVW⟩
theorem MElem.congr {V W : List ι} {m n : ℕ} {x : Arr γ} {g : (ι → ℕ → ℕ) → ℕ → ℕ → γ} (h : MElem sh V m n x g)
    (hVW : ∀ i, i ∈ V ↔ i ∈ W) : MElem sh W m n x g := ⟨h.loc.congr hVW, h.bc.congr hVW⟩

/-- One operand: map the array. -/
theorem Bc.map {V : List ι} {x : Arr β} {y : Arr γ} {P : List ℕ → ND β → Prop} {Q : List ℕ → ND γ → Prop}
    (h : Bc sh V x P) (hok : ∀ A, x = .ok A → ∀ s, P s A → ∃ B, y = .ok B ∧ Q s B)
    (herr : ∀ e, x = .error e → ∃ e, y = .error e) : Bc sh V y Q where
  ok := fun s hs => by
    obtain ⟨A, hA, hP⟩ := h.ok s hs
    exact hok A hA s hP
  err := fun hn => by
    obtain ⟨e, he⟩ := h.err hn
    exact herr e he

/-- Two operands whose batch shapes are broadcast against each other. -/
theorem Bc.map₂ {V W : List ι} {x : Arr α} {y : Arr β} {z : Arr γ} {P : List ℕ → ND α → Prop}
    {Q : List ℕ → ND β → Prop} {R : List ℕ → ND γ → Prop} (hx : Bc sh V x P) (hy : Bc sh W y Q)
    (hok : ∀ A B, x = .ok A → y = .ok B → ∀ s t u, IsBroadcast (V.map sh) s → IsBroadcast (W.map sh) t →
      bshape s t = some u → P s A → Q t B → ∃ C, z = .ok C ∧ R u C)
    (hnone : ∀ A B, x = .ok A → y = .ok B → ∀ s t, bshape s t = none → P s A → Q t B → ∃ e, z = .error e)
    (hex : ∀ e, x = .error e → ∃ e, z = .error e)
    (hey : ∀ A e, x = .ok A → y = .error e → ∃ e, z = .error e) : Bc sh (V ++ W) z R where
  ok := by
    intro u hu
    rw [List.map_append] at hu
    obtain ⟨s, hs⟩ := hu.sub (T := V.map sh) (fun t ht => by simp [ht])
    obtain ⟨t, ht⟩ := hu.sub (T := W.map sh) (fun t ht => List.mem_append.2 (Or.inr ht))
    have hb := (hs.append ht).1 hu
    obtain ⟨A, hA, hP⟩ := hx.ok s hs
    obtain ⟨B, hB, hQ⟩ := hy.ok t ht
    exact hok A B hA hB s t u hs ht hb hP hQ
  err := by
    intro hn
    rw [List.map_append] at hn
    by_cases h1 : ∃ s, IsBroadcast (V.map sh) s
    · obtain ⟨s, hs⟩ := h1
      obtain ⟨A, hA, hP⟩ := hx.ok s hs
      by_cases h2 : ∃ s, IsBroadcast (W.map sh) s
      · obtain ⟨t, ht⟩ := h2
        obtain ⟨B, hB, hQ⟩ := hy.ok t ht
        cases hb : bshape s t with
        | some u => exact absurd ⟨u, (hs.append ht).2 hb⟩ hn
        | none => exact hnone A B hA hB s t hb hP hQ
      · obtain ⟨e, he⟩ := hy.err h2
        exact hey A e hA he
    · obtain ⟨e, he⟩ := hx.err h1
      exact hex e he

theorem ops_loc {V : List ι} {g : (ι → ℕ → ℕ) → γ} (h : Loc V g) {s : List ℕ} (hs : IsBroadcast (V.map sh) s)
    (idx : ℕ → ℕ) : g (ops sh (opIdx s idx)) = g (ops sh idx) :=
  h _ _ fun i hi => opIdx_opIdx hs (List.mem_map.2 ⟨i, hi, rfl⟩) idx

theorem Loc.pair {δ : Type} {V W : List ι} {g : (ι → ℕ → ℕ) → α} {h : (ι → ℕ → ℕ) → β} (hg : Loc V g) (hh : Loc W h)
    (f : α → β → δ) : Loc (V ++ W) fun κ => f (g κ) (h κ) := fun κ κ' hk => by
  simp only [hg κ κ' fun i hi => hk i (by simp [hi]), hh κ κ' fun i hi => hk i (by simp [hi])]

theorem Loc.map {δ : Type} {V : List ι} {g : (ι → ℕ → ℕ) → α} (hg : Loc V g) (f : α → δ) : Loc V fun κ => f (g κ) :=
  fun κ κ' hk => by simp only [hg κ κ' hk]

/-! ### operands -/

/-- An operand without trailing axes. -/
theorem HElem.var (i : ι) (A : ND γ) (h : A.shape = sh i) : HElem sh [i] (.ok A) (fun κ => A.get (κ i)) where
  loc := fun κ κ' hk => by simp only [hk i (by simp)]
  bc := {
    ok := by
      intro s hs
      have := (isBroadcast_single (sh i)).unique (t := s) (by simpa using hs)
      subst this
      exact ⟨A, rfl, h, fun idx hi => by simp only [ops, opIdx_self hi]⟩
    err := fun hn => absurd ⟨_, by simpa using isBroadcast_single (sh i)⟩ hn }

/-- A batch of vectors. -/
theorem TElem.vecs (i : ι) (P : ND (V3 γ)) (h : P.shape = sh i) :
    TElem sh [i] 3 (.ok (Spec.vecs P)) (fun κ => comp3 (P.get (κ i))) where
  loc := fun κ κ' hk => by simp only [hk i (by simp)]
  bc := {
    ok := by
      intro s hs
      have := (isBroadcast_single (sh i)).unique (t := s) (by simpa using hs)
      subst this
      exact ⟨_, rfl, by rw [Spec.vecs, h], fun idx hi j _ => by simp only [ops, opIdx_self hi]; rfl⟩
    err := fun hn => absurd ⟨_, by simpa using isBroadcast_single (sh i)⟩ hn }

/-- A batch of numbers with a trailing axis of length 1. -/
theorem TElem.keep (i : ι) (M : ND γ) (h : M.shape = sh i) :
    TElem sh [i] 1 (.ok (Spec.keep M)) (fun κ _ => M.get (κ i)) where
  loc := fun κ κ' hk => by simp only [hk i (by simp)]
  bc := {
    ok := by
      intro s hs
      have := (isBroadcast_single (sh i)).unique (t := s) (by simpa using hs)
      subst this
      exact ⟨_, rfl, by rw [Spec.keep, h], fun idx hi j _ => by simp only [ops, opIdx_self hi]; rfl⟩
    err := fun hn => absurd ⟨_, by simpa using isBroadcast_single (sh i)⟩ hn }

/-- A constant without trailing axes. -/
theorem HElem.const (a : γ) : HElem sh [] (Arr.scalar a) (fun _ => a) where
  loc := fun _ _ _ => rfl
  bc := {
    ok := by
      intro s hs
      have := isBroadcast_nil.unique (t := s) (by simpa using hs)
      subst this
      exact ⟨_, rfl, rfl, fun _ _ => rfl⟩
    err := fun hn => absurd ⟨[], by simpa using isBroadcast_nil⟩ hn }

/-- A constant with one axis. -/
theorem TElem.const {c : ℕ} {A : ND γ} (h : A.shape = [c]) (a : ℕ → γ) (ha : ∀ j idx, A.get (icons j idx) = a j) :
    TElem sh [] c (.ok A) (fun _ => a) where
  loc := fun _ _ _ => rfl
  bc := {
    ok := by
      intro s hs
      have := isBroadcast_nil.unique (t := s) (by simpa using hs)
      subst this
      exact ⟨A, rfl, by simpa using h, fun idx _ j _ => ha j idx⟩
    err := fun hn => absurd ⟨[], by simpa using isBroadcast_nil⟩ hn }

/-! ### element-wise operations -/

theorem HElem.un {V : List ι} {x : Arr β} {g : (ι → ℕ → ℕ) → β} (f : β → γ) (h : HElem sh V x g) :
    HElem sh V (Arr.un f x) (fun κ => f (g κ)) where
  loc := h.loc.map f
  bc := h.bc.map
    (by rintro A rfl s ⟨h1, h2⟩; exact ⟨_, rfl, h1, fun idx hi => by simp only [h2 idx hi]⟩)
    (by rintro e rfl; exact ⟨e, rfl⟩)

theorem TElem.un {V : List ι} {c : ℕ} {x : Arr β} {g : (ι → ℕ → ℕ) → ℕ → β} (f : β → γ) (h : TElem sh V c x g) :
    TElem sh V c (Arr.un f x) (fun κ j => f (g κ j)) where
  loc := h.loc.map fun a j => f (a j)
  bc := h.bc.map
    (by rintro A rfl s ⟨h1, h2⟩; exact ⟨_, rfl, h1, fun idx hi j hj => by simp only [h2 idx hi j hj]⟩)
    (by rintro e rfl; exact ⟨e, rfl⟩)

theorem HElem.bin {V W : List ι} {x : Arr α} {y : Arr β} {g : (ι → ℕ → ℕ) → α} {h : (ι → ℕ → ℕ) → β} (f : α → β → γ)
    (hx : HElem sh V x g) (hy : HElem sh W y h) : HElem sh (V ++ W) (Arr.bin f x y) (fun κ => f (g κ) (h κ)) where
  loc := hx.loc.pair hy.loc f
  bc := by
    refine hx.bc.map₂ hy.bc ?_ ?_ ?_ ?_
    · rintro A B rfl rfl s t u hs ht hb ⟨rfl, hA⟩ ⟨rfl, hB⟩
      refine ⟨⟨u, fun idx => f (A.get (opIdx A.shape idx)) (B.get (opIdx B.shape idx))⟩, by simp only [Arr.bin, hb], rfl,
        fun idx hi => ?_⟩
      obtain ⟨h1, h2⟩ := opIdx_inShape hb hi
      simp only [hA _ h1, hB _ h2, ops_loc hx.loc hs, ops_loc hy.loc ht]
    · rintro A B rfl rfl s t hb ⟨rfl, -⟩ ⟨rfl, -⟩
      exact ⟨.incompatible, by simp only [Arr.bin, hb]⟩
    · rintro e rfl; exact ⟨e, rfl⟩
    · rintro A e rfl rfl; exact ⟨e, rfl⟩

/-- Broadcasting also along the trailing axis. -/
theorem TElem.bin {V W : List ι} {c d n : ℕ} {x : Arr α} {y : Arr β} {g : (ι → ℕ → ℕ) → ℕ → α}
    {h : (ι → ℕ → ℕ) → ℕ → β} (f : α → β → γ) (hx : TElem sh V c x g) (hy : TElem sh W d y h)
    (hn : bdim c d = some n) :
    TElem sh (V ++ W) n (Arr.bin f x y)
      (fun κ j => f (g κ (if c = 1 then 0 else j)) (h κ (if d = 1 then 0 else j))) where
  loc := hx.loc.pair hy.loc fun a b j => f (a (if c = 1 then 0 else j)) (b (if d = 1 then 0 else j))
  bc := by
    have hcd := bdim_some.1 hn
    refine hx.bc.map₂ hy.bc ?_ ?_ ?_ ?_
    · rintro A B rfl rfl s t u hs ht hb ⟨hAs, hA⟩ ⟨hBs, hB⟩
      have hb' : bshape A.shape B.shape = some (u ++ [n]) := by
        rw [hAs, hBs, bshape_append, hn, Option.bind_some, hb]; rfl
      refine ⟨⟨u ++ [n], fun idx => f (A.get (opIdx A.shape idx)) (B.get (opIdx B.shape idx))⟩,
        by simp only [Arr.bin, hb'], rfl, fun idx hi j hj => ?_⟩
      obtain ⟨h1, h2⟩ := opIdx_inShape hb hi
      simp only [hAs, hBs, opIdx_icons]
      rw [hA _ h1, hB _ h2, ops_loc hx.loc hs, ops_loc hy.loc ht]
      · split_ifs <;> omega
      · split_ifs <;> omega
    · rintro A B rfl rfl s t hb ⟨hAs, -⟩ ⟨hBs, -⟩
      have hb' : bshape A.shape B.shape = none := by
        rw [hAs, hBs, bshape_append, hn, Option.bind_some, hb]; rfl
      exact ⟨.incompatible, by simp only [Arr.bin, hb']⟩
    · rintro e rfl; exact ⟨e, rfl⟩
    · rintro A e rfl rfl; exact ⟨e, rfl⟩

/-! ### operations on trailing axes -/

theorem TElem.comp {V : List ι} {c : ℕ} {x : Arr γ} {g : (ι → ℕ → ℕ) → ℕ → γ} {j : ℕ} (hj : j < c)
    (h : TElem sh V c x g) : HElem sh V (Arr.comp j x) (fun κ => g κ j) where
  loc := h.loc.map fun a => a j
  bc := h.bc.map
    (by
      rintro A rfl s ⟨h1, h2⟩
      refine ⟨⟨A.shape.dropLast, fun idx => A.get (icons j idx)⟩, ?_, ?_, fun idx hi => h2 idx hi j hj⟩
      · simp only [Arr.comp, h1, List.getLast?_append, List.getLast?_singleton, Option.some_or, hj, if_true]
      · rw [h1]; simp)
    (by rintro e rfl; exact ⟨e, rfl⟩)

theorem HElem.expandLast {V : List ι} {x : Arr γ} {g : (ι → ℕ → ℕ) → γ} (h : HElem sh V x g) :
    TElem sh V 1 (Arr.expandLast x) (fun κ _ => g κ) where
  loc := h.loc.map fun a _ => a
  bc := h.bc.map
    (by
      rintro A rfl s ⟨rfl, h2⟩
      exact ⟨_, rfl, rfl, fun idx hi j _ => h2 idx hi⟩)
    (by rintro e rfl; exact ⟨e, rfl⟩)

theorem TElem.squeezeLast {V : List ι} {x : Arr γ} {g : (ι → ℕ → ℕ) → ℕ → γ} (h : TElem sh V 1 x g) :
    HElem sh V (Arr.squeezeLast x) (fun κ => g κ 0) where
  loc := h.loc.map fun a => a 0
  bc := h.bc.map
    (by
      rintro A rfl s ⟨h1, h2⟩
      refine ⟨⟨A.shape.dropLast, fun idx => A.get (icons 0 idx)⟩, ?_, ?_, fun idx hi => h2 idx hi 0 one_pos⟩
      · simp [Arr.squeezeLast, h1]
      · rw [h1]; simp)
    (by rintro e rfl; exact ⟨e, rfl⟩)

/-- `jnp.squeeze` raises on a last axis of another length. -/
theorem TElem.squeezeLast_error {V : List ι} {c : ℕ} (hc : c ≠ 1) {x : Arr γ} {g : (ι → ℕ → ℕ) → ℕ → γ}
    (h : TElem sh V c x g) : ∃ e, Arr.squeezeLast x = .error e := by
  rcases x with e | A
  · exact ⟨e, rfl⟩
  · by_cases hs : ∃ s, IsBroadcast (V.map sh) s
    · obtain ⟨s, hs⟩ := hs
      obtain ⟨B, hB, h1, -⟩ := h.bc.ok s hs
      obtain rfl := Except.ok.inj hB
      exact ⟨.badShape, by simp [Arr.squeezeLast, h1, hc]⟩
    · obtain ⟨e, he⟩ := h.bc.err hs
      exact absurd he (by simp)

theorem TElem.slice1 {V : List ι} {c : ℕ} {x : Arr γ} {g : (ι → ℕ → ℕ) → ℕ → γ} {j : ℕ} (hj : j < c)
    (h : TElem sh V c x g) : TElem sh V 1 (Arr.slice1 j x) (fun κ _ => g κ j) := (h.comp hj).expandLast

theorem TElem.sumLast [Add γ] [NatCast γ] {V : List ι} {c : ℕ} {x : Arr γ} {g : (ι → ℕ → ℕ) → ℕ → γ}
    (h : TElem sh V c x g) : TElem sh V 1 (Arr.sumLast x) (fun κ _ => Arr.sumN (g κ) c) where
  loc := h.loc.map fun a _ => Arr.sumN a c
  bc := h.bc.map
    (by
      rintro A rfl s ⟨h1, h2⟩
      refine ⟨⟨A.shape.dropLast ++ [1], fun idx => Arr.sumN (fun j => A.get (icons j (itail idx))) c⟩, ?_, ?_, ?_⟩
      · simp [Arr.sumLast, h1]
      · rw [h1]; simp
      · intro idx hi j _
        have key : ∀ n, n < c → Arr.sumTo (fun j => A.get (icons j idx)) n = Arr.sumTo (g (ops sh idx)) n := by
          intro n
          induction n with
          | zero => intro hn; exact h2 idx hi 0 hn
          | succ n ih =>
            intro hn
            rw [Arr.sumTo, Arr.sumTo, ih (by omega), h2 idx hi _ hn]
        show Arr.sumN (fun j => A.get (icons j idx)) c = _
        cases c with
        | zero => rfl
        | succ n => exact key n (by omega))
    (by rintro e rfl; exact ⟨e, rfl⟩)

/-- `jnp.stack` of arrays over the same operands. -/
theorem HElem.stack3 {V : List ι} {x y z : Arr γ} {f g h : (ι → ℕ → ℕ) → γ} (hx : HElem sh V x f)
    (hy : HElem sh V y g) (hz : HElem sh V z h) :
    TElem sh V 3 (Arr.stack3 x y z) (fun κ => comp3 ⟨f κ, g κ, h κ⟩) where
  loc := fun κ κ' hk => by simp only [hx.loc κ κ' hk, hy.loc κ κ' hk, hz.loc κ κ' hk]
  bc := {
    ok := by
      intro s hs
      obtain ⟨A, rfl, hA1, hA⟩ := hx.bc.ok s hs
      obtain ⟨B, rfl, hB1, hB⟩ := hy.bc.ok s hs
      obtain ⟨C, rfl, hC1, hC⟩ := hz.bc.ok s hs
      refine ⟨⟨A.shape ++ [3], fun idx =>
        match idx 0 with
        | 0 => A.get (itail idx)
        | 1 => B.get (itail idx)
        | _ => C.get (itail idx)⟩, by simp only [Arr.stack3, hA1, hB1, hC1, and_self, if_true]; rfl, by rw [hA1],
        fun idx hi j hj => ?_⟩
      have hj' : j = 0 ∨ j = 1 ∨ j = 2 := by omega
      rcases hj' with rfl | rfl | rfl
      · exact hA idx hi
      · exact hB idx hi
      · exact hC idx hi
    err := by
      intro hn
      obtain ⟨e, rfl⟩ := hx.bc.err hn
      exact ⟨e, by simp only [Arr.stack3]⟩ }

theorem TElem.stackRows3 {V : List ι} {n : ℕ} {x y z : Arr γ} {f g h : (ι → ℕ → ℕ) → ℕ → γ} (hx : TElem sh V n x f)
    (hy : TElem sh V n y g) (hz : TElem sh V n z h) :
    MElem sh V 3 n (Arr.stackRows3 x y z) (fun κ i => match i with
      | 0 => f κ
      | 1 => g κ
      | _ => h κ) where
  loc := fun κ κ' hk => by simp only [hx.loc κ κ' hk, hy.loc κ κ' hk, hz.loc κ κ' hk]
  bc := {
    ok := by
      intro s hs
      obtain ⟨A, rfl, hA1, hA⟩ := hx.bc.ok s hs
      obtain ⟨B, rfl, hB1, hB⟩ := hy.bc.ok s hs
      obtain ⟨C, rfl, hC1, hC⟩ := hz.bc.ok s hs
      refine ⟨⟨s ++ [3, n], fun idx =>
        match idx 1 with
        | 0 => A.get (icons (idx 0) (itail (itail idx)))
        | 1 => B.get (icons (idx 0) (itail (itail idx)))
        | _ => C.get (icons (idx 0) (itail (itail idx)))⟩,
        by simp [Arr.stackRows3, hA1, hB1, hC1]; rfl, rfl, fun idx hi i hi3 j hj => ?_⟩
      have hi' : i = 0 ∨ i = 1 ∨ i = 2 := by omega
      rcases hi' with rfl | rfl | rfl
      · exact hA idx hi j hj
      · exact hB idx hi j hj
      · exact hC idx hi j hj
    err := by
      intro hn
      obtain ⟨e, rfl⟩ := hx.bc.err hn
      exact ⟨e, by simp only [Arr.stackRows3]⟩ }

/-- A column: `jnp.expand_dims(x, axis=-1)` of a batch of vectors. -/
theorem TElem.expandLast {V : List ι} {c : ℕ} {x : Arr γ} {g : (ι → ℕ → ℕ) → ℕ → γ} (h : TElem sh V c x g) :
    MElem sh V c 1 (Arr.expandLast x) (fun κ i _ => g κ i) where
  loc := fun κ κ' hk => by simp only [h.loc κ κ' hk]
  bc := h.bc.map
    (by
      rintro A rfl s ⟨h1, h2⟩
      exact ⟨_, rfl, by simp [h1], fun idx hi i hi' j _ => h2 idx hi i hi'⟩)
    (by rintro e rfl; exact ⟨e, rfl⟩)

theorem MElem.squeezeLast {V : List ι} {m : ℕ} {x : Arr γ} {g : (ι → ℕ → ℕ) → ℕ → ℕ → γ} (h : MElem sh V m 1 x g) :
    TElem sh V m (Arr.squeezeLast x) (fun κ i => g κ i 0) where
  loc := h.loc.map fun a i => a i 0
  bc := h.bc.map
    (by
      rintro A rfl s ⟨h1, h2⟩
      refine ⟨⟨A.shape.dropLast, fun idx => A.get (icons 0 idx)⟩, ?_, ?_, fun idx hi i hi' => h2 idx hi i hi' 0 one_pos⟩
      · simp [Arr.squeezeLast, h1]
      · rw [h1, show s ++ [m, 1] = (s ++ [m]) ++ [1] by simp, List.dropLast_concat])
    (by rintro e rfl; exact ⟨e, rfl⟩)

theorem sumN_congr [Add γ] [NatCast γ] {f g : ℕ → γ} {c : ℕ} (h : ∀ j < c, f j = g j) : Arr.sumN f c = Arr.sumN g c := by
  cases c with
  | zero => rfl
  | succ n =>
    have key : ∀ k, k ≤ n → Arr.sumTo f k = Arr.sumTo g k := by
      intro k
      induction k with
      | zero => intro _; exact h 0 (by omega)
      | succ k ih => intro hk; rw [Arr.sumTo, Arr.sumTo, ih (by omega), h _ (by omega)]
    exact key n le_rfl

theorem MElem.matmul [Add γ] [Mul γ] [NatCast γ] {V W : List ι} {m k n : ℕ} {x y : Arr γ}
    {g h : (ι → ℕ → ℕ) → ℕ → ℕ → γ} (hx : MElem sh V m k x g) (hy : MElem sh W k n y h) :
    MElem sh (V ++ W) m n (Arr.matmul x y) (fun κ i j => Arr.sumN (fun l => g κ i l * h κ l j) k) where
  loc := hx.loc.pair hy.loc fun a b i j => Arr.sumN (fun l => a i l * b l j) k
  bc := by
    refine hx.bc.map₂ hy.bc ?_ ?_ ?_ ?_
    · rintro A B rfl rfl s t u hs ht hb ⟨hAs, hA⟩ ⟨hBs, hB⟩
      refine ⟨⟨u ++ [m, n], fun idx =>
        Arr.sumN (fun j => A.get (icons j (icons (idx 1) (opIdx s (itail (itail idx)))))
          * B.get (icons (idx 0) (icons j (opIdx t (itail (itail idx)))))) k⟩, ?_, rfl, fun idx hi i hi' j hj => ?_⟩
      · simp [Arr.matmul, hAs, hBs, hb]
      · obtain ⟨h1, h2⟩ := opIdx_inShape hb hi
        refine sumN_congr fun l hl => ?_
        have e1 := hA _ h1 i hi' l hl
        have e2 := hB _ h2 l hl j hj
        rw [ops_loc hx.loc hs] at e1
        rw [ops_loc hy.loc ht] at e2
        rw [← e1, ← e2]
        rfl
    · rintro A B rfl rfl s t hb ⟨hAs, -⟩ ⟨hBs, -⟩
      exact ⟨.incompatible, by simp [Arr.matmul, hAs, hBs, hb]⟩
    · rintro e rfl; exact ⟨e, rfl⟩
    · rintro A e rfl rfl; exact ⟨e, rfl⟩

/-! ### batches of vectors and matrices -/

/-- Array of shape `(..., 3)` holding vectors. -/
abbrev VElem (sh : ι → List ℕ) (V : List ι) (x : Arr γ) (g : (ι → ℕ → ℕ) → V3 γ) : Prop :=
  TElem sh V 3 x fun κ => comp3 (g κ)
/-- Array of shape `(..., 1)`. -/
abbrev KElem (sh : ι → List ℕ) (V : List ι) (x : Arr γ) (g : (ι → ℕ → ℕ) → γ) : Prop :=
  TElem sh V 1 x fun κ _ => g κ
/-- Array of shape `(..., 3, 3)` holding matrices. -/
abbrev QElem (sh : ι → List ℕ) (V : List ι) (x : Arr γ) (g : (ι → ℕ → ℕ) → M3 γ) : Prop :=
  MElem sh V 3 3 x fun κ i j => comp3 (row3 (g κ) i) j

theorem TElem.ext {V : List ι} {c : ℕ} {x : Arr γ} {g g' : (ι → ℕ → ℕ) → ℕ → γ} (h : TElem sh V c x g)
    (hl : Loc V g') (hg : ∀ κ, ∀ j < c, g κ j = g' κ j) : TElem sh V c x g' where
  loc := hl
  bc := h.bc.map (fun A hA _ hs => ⟨A, hA, hs.1, fun idx hi j hj => (hs.2 idx hi j hj).trans (hg _ j hj)⟩)
    (fun e he => ⟨e, he⟩)

theorem MElem.ext {V : List ι} {m n : ℕ} {x : Arr γ} {g g' : (ι → ℕ → ℕ) → ℕ → ℕ → γ} (h : MElem sh V m n x g)
    (hl : Loc V g') (hg : ∀ κ, ∀ i < m, ∀ j < n, g κ i j = g' κ i j) : MElem sh V m n x g' where
  loc := hl
  bc := h.bc.map (fun A hA _ hs => ⟨A, hA, hs.1, fun idx hi i hi' j hj => (hs.2 idx hi i hi' j hj).trans (hg _ i hi' j hj)⟩)
    (fun e he => ⟨e, he⟩)

theorem lt3 {P : ℕ → Prop} (h0 : P 0) (h1 : P 1) (h2 : P 2) : ∀ j < 3, P j := by
  intro j hj
  have : j = 0 ∨ j = 1 ∨ j = 2 := by omega
  rcases this with rfl | rfl | rfl <;> assumption

theorem vloc {V : List ι} {x : Arr γ} {g : (ι → ℕ → ℕ) → V3 γ} (h : VElem sh V x g) : Loc V g := fun κ κ' hk => by
  have := h.loc κ κ' hk
  exact V3.ext (congrFun this 0) (congrFun this 1) (congrFun this 2)

theorem kloc {V : List ι} {x : Arr γ} {g : (ι → ℕ → ℕ) → γ} (h : KElem sh V x g) : Loc V g := fun κ κ' hk =>
  congrFun (h.loc κ κ' hk) 0

theorem qloc {V : List ι} {x : Arr γ} {g : (ι → ℕ → ℕ) → M3 γ} (h : QElem sh V x g) : Loc V g := fun κ κ' hk => by
  have := h.loc κ κ' hk
  have e : ∀ i j, comp3 (row3 (g κ) i) j = comp3 (row3 (g κ') i) j := fun i j => congrFun (congrFun this i) j
  exact M3.ext (V3.ext (e 0 0) (e 0 1) (e 0 2)) (V3.ext (e 1 0) (e 1 1) (e 1 2)) (V3.ext (e 2 0) (e 2 1) (e 2 2))

section vec
variable {V W : List ι} {x y z : Arr γ} {u v : (ι → ℕ → ℕ) → V3 γ} {k l : (ι → ℕ → ℕ) → γ}

theorem VElem.bin (f : γ → γ → γ) (hx : VElem sh V x u) (hy : VElem sh W y v) :
    VElem sh (V ++ W) (Arr.bin f x y) fun κ => ⟨f (u κ).x (v κ).x, f (u κ).y (v κ).y, f (u κ).z (v κ).z⟩ :=
  (TElem.bin f hx hy (n := 3) rfl).ext
    ((vloc hx).pair (vloc hy) fun a b => comp3 ⟨f a.x b.x, f a.y b.y, f a.z b.z⟩)
    fun _ => lt3 rfl rfl rfl

theorem VElem.binK (f : γ → γ → γ) (hx : VElem sh V x u) (hy : KElem sh W y l) :
    VElem sh (V ++ W) (Arr.bin f x y) fun κ => ⟨f (u κ).x (l κ), f (u κ).y (l κ), f (u κ).z (l κ)⟩ :=
  (TElem.bin f hx hy (n := 3) rfl).ext
    ((vloc hx).pair (kloc hy) fun a b => comp3 ⟨f a.x b, f a.y b, f a.z b⟩)
    fun _ => lt3 rfl rfl rfl

theorem KElem.binV (f : γ → γ → γ) (hx : KElem sh V x k) (hy : VElem sh W y v) :
    VElem sh (V ++ W) (Arr.bin f x y) fun κ => ⟨f (k κ) (v κ).x, f (k κ) (v κ).y, f (k κ) (v κ).z⟩ :=
  (TElem.bin f hx hy (n := 3) rfl).ext
    ((kloc hx).pair (vloc hy) fun a b => comp3 ⟨f a b.x, f a b.y, f a b.z⟩)
    fun _ => lt3 rfl rfl rfl

theorem KElem.bin (f : γ → γ → γ) (hx : KElem sh V x k) (hy : KElem sh W y l) :
    KElem sh (V ++ W) (Arr.bin f x y) fun κ => f (k κ) (l κ) :=
  TElem.bin f hx hy (n := 1) rfl

theorem VElem.sub [Sub γ] (hx : VElem sh V x u) (hy : VElem sh W y v) :
    VElem sh (V ++ W) (x - y) fun κ => u κ - v κ := VElem.bin (· - ·) hx hy
theorem VElem.add [Add γ] (hx : VElem sh V x u) (hy : VElem sh W y v) :
    VElem sh (V ++ W) (x + y) fun κ => u κ + v κ := VElem.bin (· + ·) hx hy
theorem VElem.divK [Div γ] (hx : VElem sh V x u) (hy : KElem sh W y l) :
    VElem sh (V ++ W) (x / y) fun κ => u κ / l κ := VElem.binK (· / ·) hx hy
theorem KElem.mulV [Mul γ] (hx : KElem sh V x k) (hy : VElem sh W y v) :
    VElem sh (V ++ W) (x * y) fun κ => k κ • v κ := KElem.binV (· * ·) hx hy

/-- `jnp.sum(x * y, axis=-1, keepdims=True)`. -/
theorem VElem.dot [Add γ] [Mul γ] [NatCast γ] (hx : VElem sh V x u) (hy : VElem sh W y v) :
    KElem sh (V ++ W) (Arr.sumLast (x * y)) fun κ => V3.dot (u κ) (v κ) :=
  (VElem.bin (· * ·) hx hy).sumLast

/-- `vector_norm(x, axis=-1, keepdims=True)`. -/
theorem VElem.norm [Add γ] [Mul γ] [NatCast γ] [JFun γ] (hx : VElem sh V x u) :
    KElem sh V (Arr.normLast x) fun κ => V3.norm (u κ) :=
  ((VElem.dot hx hx).un JFun.sqrt).congr (by simp)

theorem VElem.stack {a b c : (ι → ℕ → ℕ) → γ} (hx : HElem sh V x a) (hy : HElem sh V y b) (hz : HElem sh V z c) :
    VElem sh V (Arr.stack3 x y z) fun κ => ⟨a κ, b κ, c κ⟩ := HElem.stack3 hx hy hz

theorem VElem.cross [Sub γ] [Mul γ] (hx : VElem sh V x u) (hy : VElem sh W y v) :
    VElem sh (V ++ W) (Arr.cross x y) fun κ => V3.cross (u κ) (v κ) where
  loc := (vloc hx).pair (vloc hy) fun a b => comp3 (V3.cross a b)
  bc := by
    have hc : ∀ i j, i < 3 → j < 3 → ∀ i' j', i' < 3 → j' < 3 → HElem sh (V ++ W)
        (Arr.comp i x * Arr.comp j y - Arr.comp i' x * Arr.comp j' y)
        (fun κ => comp3 (u κ) i * comp3 (v κ) j - comp3 (u κ) i' * comp3 (v κ) j') := by
      intro i j hi hj i' j' hi' hj'
      exact (HElem.bin (· - ·) (HElem.bin (· * ·) (hx.comp hi) (hy.comp hj))
        (HElem.bin (· * ·) (hx.comp hi') (hy.comp hj'))).congr (by simp; tauto)
    have hs3 := (hc 1 2 (by omega) (by omega) 2 1 (by omega) (by omega)).stack3
      (hc 2 0 (by omega) (by omega) 0 2 (by omega) (by omega)) (hc 0 1 (by omega) (by omega) 1 0 (by omega) (by omega))
    refine hx.bc.map₂ hy.bc ?_ ?_ ?_ ?_
    · rintro A B rfl rfl s t w hs ht hb ⟨hAs, -⟩ ⟨hBs, -⟩
      obtain ⟨C, hC, h1, h2⟩ := hs3.bc.ok w (by rw [List.map_append]; exact (hs.append ht).2 hb)
      refine ⟨C, ?_, h1, h2⟩
      simp only [Arr.cross, hAs, hBs, List.getLast?_append, List.getLast?_singleton, Option.some_or, and_self, if_true]
      exact hC
    · rintro A B rfl rfl s t hb ⟨hAs, -⟩ ⟨hBs, -⟩
      refine ⟨.incompatible, ?_⟩
      have hb' : ∀ (f : γ → γ → γ) (g h : (ℕ → ℕ) → γ), Arr.bin f (.ok ⟨s, g⟩) (.ok ⟨t, h⟩) = .error .incompatible := by
        intro f g h; simp only [Arr.bin, hb]
      have hcomp : ∀ j, j < 3 → Arr.comp j (.ok A) = .ok ⟨s, fun idx => A.get (icons j idx)⟩ := by
        intro j hj; simp [Arr.comp, hAs, hj]
      have hcomp' : ∀ j, j < 3 → Arr.comp j (.ok B) = .ok ⟨t, fun idx => B.get (icons j idx)⟩ := by
        intro j hj; simp [Arr.comp, hBs, hj]
      simp only [Arr.cross, hAs, hBs, List.getLast?_append, List.getLast?_singleton, Option.some_or, and_self, if_true]
      rw [hcomp 1 (by omega), hcomp 2 (by omega), hcomp' 1 (by omega), hcomp' 2 (by omega)]
      rw [show ∀ a b : Arr γ, a * b = Arr.bin (· * ·) a b from fun _ _ => rfl, hb']
      rfl
    · rintro e rfl; exact ⟨e, rfl⟩
    · rintro A e rfl rfl; exact ⟨e, rfl⟩

theorem QElem.mul [Add γ] [Mul γ] [NatCast γ] {a b : (ι → ℕ → ℕ) → M3 γ} (hx : QElem sh V x a) (hy : QElem sh W y b) :
    QElem sh (V ++ W) (Arr.matmul x y) fun κ => M3.mul (a κ) (b κ) :=
  (MElem.matmul hx hy).ext ((qloc hx).pair (qloc hy) fun m n i j => comp3 (row3 (M3.mul m n) i) j)
    fun _ => lt3 (lt3 rfl rfl rfl) (lt3 rfl rfl rfl) (lt3 rfl rfl rfl)

/-- `jnp.squeeze(m @ jnp.expand_dims(x, -1), -1)`. -/
theorem QElem.mulVec [Add γ] [Mul γ] [NatCast γ] {a : (ι → ℕ → ℕ) → M3 γ} (hx : QElem sh V x a) (hy : VElem sh W y v) :
    VElem sh (V ++ W) (Arr.squeezeLast (Arr.matmul x (Arr.expandLast y))) fun κ => M3.mulVec (a κ) (v κ) :=
  (MElem.matmul hx hy.expandLast).squeezeLast.ext
    ((qloc hx).pair (vloc hy) fun m n => comp3 (M3.mulVec m n)) fun _ => lt3 rfl rfl rfl

theorem QElem.stack {a b c : (ι → ℕ → ℕ) → V3 γ} (hx : VElem sh V x a) (hy : VElem sh V y b) (hz : VElem sh V z c) :
    QElem sh V (Arr.stackRows3 x y z) fun κ => ⟨a κ, b κ, c κ⟩ :=
  (TElem.stackRows3 hx hy hz).ext
    (fun κ κ' hk => by simp only [vloc hx κ κ' hk, vloc hy κ κ' hk, vloc hz κ κ' hk])
    fun _ => lt3 (lt3 rfl rfl rfl) (lt3 rfl rfl rfl) (lt3 rfl rfl rfl)

end vec

/-! ### to the specification -/

theorem withLast_eq (j : ℕ) (idx : ℕ → ℕ) : withLast j idx = icons j idx := by
  funext k; cases k <;> simp [withLast, icons]

theorem HElem.isBatch {V : List ι} {x : Arr γ} {g : (ι → ℕ → ℕ) → γ} (h : HElem sh V x g) :
    IsBatch (V.map sh) x fun idx => g (ops sh idx) := ⟨h.bc.ok, h.bc.err⟩

theorem TElem.isBatchV {V : List ι} {x : Arr γ} {g : (ι → ℕ → ℕ) → V3 γ} (h : VElem sh V x g) :
    IsBatchV (V.map sh) x fun idx => g (ops sh idx) where
  ok := fun s hs => by
    obtain ⟨A, hA, h1, h2⟩ := h.bc.ok s hs
    refine ⟨A, hA, h1, fun idx hi => ?_⟩
    simp only [withLast_eq]
    exact ⟨h2 idx hi 0 (by omega), h2 idx hi 1 (by omega), h2 idx hi 2 (by omega)⟩
  err := h.bc.err

theorem TElem.isBatchK {V : List ι} {x : Arr γ} {g : (ι → ℕ → ℕ) → γ} (h : KElem sh V x g) :
    IsBatchK (V.map sh) x fun idx => g (ops sh idx) where
  ok := fun s hs => by
    obtain ⟨A, hA, h1, h2⟩ := h.bc.ok s hs
    refine ⟨A, hA, h1, fun idx hi => ?_⟩
    simp only [withLast_eq]
    exact h2 idx hi 0 (by omega)
  err := h.bc.err

theorem MElem.isBatchM {V : List ι} {x : Arr γ} {g : (ι → ℕ → ℕ) → M3 γ} (h : QElem sh V x g) :
    IsBatchM (V.map sh) x fun idx => g (ops sh idx) where
  ok := fun s hs => by
    obtain ⟨A, hA, h1, h2⟩ := h.bc.ok s hs
    refine ⟨A, hA, h1, fun idx hi i hi' j hj => ?_⟩
    simp only [withLast_eq]
    exact h2 idx hi i hi' j hj
  err := h.bc.err

end
end Adx
