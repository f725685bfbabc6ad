import Verif.Model.NDArray

/-! # Facts about broadcasting -/

namespace Adx
open Spec

theorem bdim_comm (a b : ℕ) : bdim a b = bdim b a := by
  unfold bdim; split_ifs <;> simp_all

theorem bdim_one (a : ℕ) : bdim a 1 = some a := by unfold bdim; split_ifs <;> simp_all
theorem one_bdim (a : ℕ) : bdim 1 a = some a := by rw [bdim_comm, bdim_one]

theorem bdim_some {a b c : ℕ} : bdim a b = some c ↔
    (a = 1 ∨ a = c) ∧ (b = 1 ∨ b = c) ∧ (a = c ∨ b = c) := by
  unfold bdim; split_ifs <;> simp <;> omega

theorem bshapeRev_some (xs ys zs : List ℕ) : bshapeRev xs ys = some zs ↔
    zs.length = max xs.length ys.length ∧ ∀ k, bdim (xs.getD k 1) (ys.getD k 1) = some (zs.getD k 1) := by
  induction xs generalizing ys zs with
  | nil =>
    simp only [bshapeRev, Option.some.injEq, List.length_nil, Nat.zero_max]
    constructor
    · rintro rfl; exact ⟨rfl, fun k => by simp [one_bdim]⟩
    · rintro ⟨h, hk⟩
      refine List.ext_getElem h.symm fun k h1 h2 => ?_
      have := hk k
      simpa [one_bdim, h1, h2] using this
  | cons x xs ih =>
    cases ys with
    | nil =>
      simp only [bshapeRev, Option.some.injEq, List.length_nil, Nat.max_zero]
      constructor
      · rintro rfl; exact ⟨rfl, fun k => by simp [bdim_one]⟩
      · rintro ⟨h, hk⟩
        refine List.ext_getElem h.symm fun k h1 h2 => ?_
        have := hk k
        simpa [bdim_one, List.getD_eq_getElem?_getD, List.getElem?_eq_getElem h1, List.getElem?_eq_getElem h2] using this
    | cons y ys =>
      simp only [bshapeRev, bind, Option.bind_eq_some_iff, pure]
      constructor
      · rintro ⟨d, hd, ds, hds, h⟩
        obtain rfl := Option.some.inj h
        obtain ⟨hl, hk⟩ := (ih ys ds).1 hds
        refine ⟨by simp [hl], fun k => ?_⟩
        cases k with
        | zero => simpa using hd
        | succ k => simpa using hk k
      · rintro ⟨hl, hk⟩
        cases zs with
        | nil => simp at hl
        | cons z zs =>
          refine ⟨z, by simpa using hk 0, zs, (ih ys zs).2 ⟨by simpa using hl, fun k => by simpa using hk (k + 1)⟩, rfl⟩

theorem bshape_some (s t u : List ℕ) : bshape s t = some u ↔
    u.length = max s.length t.length ∧ ∀ k, bdim (dimR s k) (dimR t k) = some (dimR u k) := by
  unfold bshape dimR
  rw [Option.map_eq_some_iff]
  constructor
  · rintro ⟨z, hz, rfl⟩
    have := (bshapeRev_some _ _ _).1 hz
    simpa using this
  · intro h
    exact ⟨u.reverse, (bshapeRev_some _ _ _).2 (by simpa using h), by simp⟩

theorem dimR_of_le {s : List ℕ} {k : ℕ} (h : s.length ≤ k) : dimR s k = 1 := by
  unfold dimR
  rw [List.getD_eq_getElem?_getD, List.getElem?_eq_none (by simpa using h)]; rfl

/-- The axis condition holds on every axis, not only those of the result. -/
theorem Spec.IsBroadcast.axis {S : List (List ℕ)} {s : List ℕ} (h : IsBroadcast S s) (k : ℕ) :
    ∀ t ∈ S, dimR t k = 1 ∨ dimR t k = dimR s k := by
  intro t ht
  by_cases hk : k < s.length
  · exact (h.2.2 k hk).1 t ht
  · exact Or.inl (dimR_of_le (by have := h.1 t ht; omega))

theorem Spec.IsBroadcast.attained {S : List (List ℕ)} {s : List ℕ} (h : IsBroadcast S s) (k : ℕ)
    (h1 : dimR s k ≠ 1) : ∃ t ∈ S, dimR t k = dimR s k := by
  by_cases hk : k < s.length
  · exact (h.2.2 k hk).2
  · exact absurd (dimR_of_le (by omega)) h1

/-- A convenient restatement. -/
theorem isBroadcast_iff {S : List (List ℕ)} {s : List ℕ} : IsBroadcast S s ↔
    (∀ t ∈ S, t.length ≤ s.length) ∧ (s.length = 0 ∨ ∃ t ∈ S, t.length = s.length) ∧
    ∀ k, (∀ t ∈ S, dimR t k = 1 ∨ dimR t k = dimR s k) ∧
      (dimR s k ≠ 1 → ∃ t ∈ S, dimR t k = dimR s k) := by
  constructor
  · intro h
    exact ⟨h.1, h.2.1, fun k => ⟨h.axis k, h.attained k⟩⟩
  · rintro ⟨h1, h2, h3⟩
    refine ⟨h1, h2, fun k hk => ⟨(h3 k).1, ?_⟩⟩
    by_cases h : dimR s k = 1
    · rcases h2 with h0 | ⟨t, ht, hl⟩
      · omega
      · refine ⟨t, ht, ?_⟩
        rcases (h3 k).1 t ht with h' | h'
        · rw [h', h]
        · exact h'
    · exact (h3 k).2 h

theorem Spec.IsBroadcast.append {S T : List (List ℕ)} {s t u : List ℕ} (hs : IsBroadcast S s)
    (ht : IsBroadcast T t) : IsBroadcast (S ++ T) u ↔ bshape s t = some u := by
  rw [bshape_some]
  rw [isBroadcast_iff] at hs ht
  obtain ⟨a1, a2, a3⟩ := hs
  obtain ⟨b1, b2, b3⟩ := ht
  constructor
  · intro hu
    have hu' := isBroadcast_iff.1 hu
    obtain ⟨c1, c2, c3⟩ := hu'
    have hsu : s.length ≤ u.length := by
      rcases a2 with h | ⟨w, hw, h⟩
      · omega
      · rw [← h]; exact c1 w (by simp [hw])
    have htu : t.length ≤ u.length := by
      rcases b2 with h | ⟨w, hw, h⟩
      · omega
      · rw [← h]; exact c1 w (by simp [hw])
    refine ⟨?_, fun k => ?_⟩
    · rcases c2 with h | ⟨w, hw, h⟩
      · omega
      · rcases List.mem_append.1 hw with hw | hw
        · have := a1 w hw; omega
        · have := b1 w hw; omega
    · rw [bdim_some]
      have hsk : dimR s k = 1 ∨ dimR s k = dimR u k := by
        by_cases h : dimR s k = 1
        · exact Or.inl h
        · obtain ⟨w, hw, hwk⟩ := (a3 k).2 h
          rw [← hwk] at h ⊢
          exact Or.inr (((c3 k).1 w (by simp [hw])).resolve_left h)
      have htk : dimR t k = 1 ∨ dimR t k = dimR u k := by
        by_cases h : dimR t k = 1
        · exact Or.inl h
        · obtain ⟨w, hw, hwk⟩ := (b3 k).2 h
          rw [← hwk] at h ⊢
          exact Or.inr (((c3 k).1 w (by simp [hw])).resolve_left h)
      refine ⟨hsk, htk, ?_⟩
      by_cases h : dimR u k = 1
      · left; rcases hsk with h' | h'
        · rw [h', h]
        · exact h'
      · obtain ⟨w, hw, hwk⟩ := (c3 k).2 h
        have hw1 : dimR w k ≠ 1 := by rw [hwk]; exact h
        rcases List.mem_append.1 hw with hw | hw
        · left; rw [← hwk]; exact (((a3 k).1 w hw).resolve_left hw1).symm
        · right; rw [← hwk]; exact (((b3 k).1 w hw).resolve_left hw1).symm
  · rintro ⟨hl, hk⟩
    rw [isBroadcast_iff]
    refine ⟨?_, ?_, fun k => ⟨?_, ?_⟩⟩
    · intro w hw
      rcases List.mem_append.1 hw with hw | hw
      · have := a1 w hw; omega
      · have := b1 w hw; omega
    · by_cases h0 : u.length = 0
      · exact Or.inl h0
      · right
        rcases le_total s.length t.length with h | h
        · rcases b2 with hb | ⟨w, hw, hb⟩
          · omega
          · exact ⟨w, by simp [hw], by omega⟩
        · rcases a2 with hb | ⟨w, hw, hb⟩
          · omega
          · exact ⟨w, by simp [hw], by omega⟩
    · intro w hw
      have := bdim_some.1 (hk k)
      rcases List.mem_append.1 hw with hw | hw
      · rcases (a3 k).1 w hw with h | h
        · exact Or.inl h
        · rw [h]; exact this.1
      · rcases (b3 k).1 w hw with h | h
        · exact Or.inl h
        · rw [h]; exact this.2.1
    · intro h
      rcases (bdim_some.1 (hk k)).2.2 with h' | h'
      · obtain ⟨w, hw, e⟩ := (a3 k).2 (by rw [h']; exact h)
        exact ⟨w, by simp [hw], by rw [e, h']⟩
      · obtain ⟨w, hw, e⟩ := (b3 k).2 (by rw [h']; exact h)
        exact ⟨w, by simp [hw], by rw [e, h']⟩

/-- Compatibility is inherited by sub-collections. -/
theorem Spec.IsBroadcast.sub {S T : List (List ℕ)} {s : List ℕ} (h : IsBroadcast S s) (hT : ∀ t ∈ T, t ∈ S) :
    ∃ t, IsBroadcast T t := by
  classical
  obtain ⟨L, hL1, hL2⟩ : ∃ L, (∀ t ∈ T, t.length ≤ L) ∧ (L = 0 ∨ ∃ t ∈ T, t.length = L) := by
    clear h hT
    induction T with
    | nil => exact ⟨0, by simp, Or.inl rfl⟩
    | cons t T ih =>
      obtain ⟨L, h1, h2⟩ := ih
      refine ⟨max t.length L, ?_, ?_⟩
      · intro w hw
        rcases List.mem_cons.1 hw with rfl | hw
        · omega
        · have := h1 w hw; omega
      · rcases le_total L t.length with hl | hl
        · exact Or.inr ⟨t, by simp, by omega⟩
        · rcases h2 with h0 | ⟨w, hw, e⟩
          · exact Or.inr ⟨t, by simp, by omega⟩
          · exact Or.inr ⟨w, by simp [hw], by omega⟩
  let d : ℕ → ℕ := fun k => if ∃ t ∈ T, dimR t k ≠ 1 then dimR s k else 1
  refine ⟨((List.range L).map d).reverse, ?_⟩
  have hlen : (((List.range L).map d).reverse).length = L := by simp
  have hd : ∀ k, k < L → dimR ((List.range L).map d).reverse k = d k := by
    intro k hk
    simp [dimR, hk]
  rw [isBroadcast_iff, hlen]
  refine ⟨hL1, hL2, fun k => ?_⟩
  by_cases hk : k < L
  · rw [hd k hk]
    refine ⟨fun t ht => ?_, fun h1 => ?_⟩
    · by_cases h1 : dimR t k = 1
      · exact Or.inl h1
      · right
        have : d k = dimR s k := if_pos ⟨t, ht, h1⟩
        rw [this]
        exact (h.axis k t (hT t ht)).resolve_left h1
    · by_cases hex : ∃ t ∈ T, dimR t k ≠ 1
      · obtain ⟨t, ht, h2⟩ := hex
        refine ⟨t, ht, ?_⟩
        have : d k = dimR s k := if_pos ⟨t, ht, h2⟩
        rw [this]
        exact (h.axis k t (hT t ht)).resolve_left h2
      · exact absurd (if_neg hex) h1
  · have : dimR ((List.range L).map d).reverse k = 1 := dimR_of_le (by rw [hlen]; omega)
    rw [this]
    refine ⟨fun t ht => Or.inl (dimR_of_le (by have := hL1 t ht; omega)), fun h => absurd rfl h⟩

theorem Spec.IsBroadcast.congr {S T : List (List ℕ)} {s : List ℕ} (h : ∀ t, t ∈ S ↔ t ∈ T) :
    IsBroadcast S s ↔ IsBroadcast T s := by
  unfold IsBroadcast; simp only [h]

theorem isBroadcast_single (t : List ℕ) : IsBroadcast [t] t :=
  ⟨by simp, Or.inr ⟨t, by simp, rfl⟩, fun k _ => ⟨by simp, t, by simp, rfl⟩⟩

theorem isBroadcast_nil : IsBroadcast [] [] := ⟨by simp, Or.inl rfl, by simp⟩

/-- The broadcast shape is unique. -/
theorem Spec.IsBroadcast.unique {S : List (List ℕ)} {s t : List ℕ} (hs : IsBroadcast S s)
    (ht : IsBroadcast S t) : s = t := by
  have h1 : bshape s s = some s := by
    rw [bshape_some]; exact ⟨by simp, fun k => by simp [bdim]⟩
  have h2 := (hs.append hs).2 h1
  have h3 : IsBroadcast (S ++ S) t := (Spec.IsBroadcast.congr (by simp)).1 ht
  have h4 := (hs.append hs).1 h3
  rw [h1] at h4
  exact Option.some.inj h4

/-- Operand indices compose along a broadcast. -/
theorem opIdx_opIdx {S : List (List ℕ)} {s t : List ℕ} (h : IsBroadcast S s) (ht : t ∈ S) (idx : ℕ → ℕ) :
    opIdx t (opIdx s idx) = opIdx t idx := by
  funext k
  unfold opIdx
  split_ifs with h1 h2
  · rfl
  · exact absurd h2 (by rcases h.axis k t ht with h' | h' <;> omega)
  · rfl

theorem opIdx_inShape {s t u : List ℕ} (h : bshape s t = some u) {idx : ℕ → ℕ} (hi : InShape u idx) :
    InShape s (opIdx s idx) ∧ InShape t (opIdx t idx) := by
  have hk := ((bshape_some _ _ _).1 h).2
  constructor <;> intro k <;> unfold opIdx <;> split_ifs with h1
  · omega
  · have := (bdim_some.1 (hk k)).1.resolve_left h1
    rw [this]; exact hi k
  · omega
  · have := (bdim_some.1 (hk k)).2.1.resolve_left h1
    rw [this]; exact hi k

theorem opIdx_self {s : List ℕ} {idx : ℕ → ℕ} (hi : InShape s idx) : opIdx s idx = idx := by
  funext k
  unfold opIdx
  split_ifs with h
  · have := hi k; omega
  · rfl

/-! ### expressions over broadcast operands -/

section Elem
variable {α ι : Type} (env : ι → ND α)

/-- `x` is the elementwise image under `g` of the operands `env i`, `i ∈ V`: if their shapes have a
broadcast shape it is an array of that shape with entries `g` of the corresponding operand entries;
if they have none it is an error. -/
structure Elem (V : List ι) (x : Arr α) (g : (ι → α) → α) : Prop where
  local_ : ∀ ρ ρ', (∀ i ∈ V, ρ i = ρ' i) → g ρ = g ρ'
  ok : ∀ s, IsBroadcast (V.map fun i => (env i).shape) s →
    ∃ A : ND α, x = .ok A ∧ A.shape = s ∧
      ∀ idx, InShape s idx → A.get idx = g fun i => (env i).get (opIdx (env i).shape idx)
  err : (¬ ∃ s, IsBroadcast (V.map fun i => (env i).shape) s) → ∃ e, x = .error e

variable {env}

theorem Elem.var (i : ι) : Elem env [i] (.ok (env i)) (fun ρ => ρ i) where
  local_ := by intro ρ ρ' h; exact h i (by simp)
  ok := by
    intro s hs
    have := (isBroadcast_single (env i).shape).unique (t := s) (by simpa using hs)
    subst this
    exact ⟨_, rfl, rfl, fun idx hi => by simp only [opIdx_self hi]⟩
  err := fun h => absurd ⟨_, by simpa using isBroadcast_single (env i).shape⟩ h

theorem Elem.scalar (a : α) : Elem env [] (Arr.scalar a) (fun _ => a) where
  local_ := by intros; rfl
  ok := by
    intro s hs
    have := isBroadcast_nil.unique (t := s) (by simpa using hs)
    subst this
    exact ⟨_, rfl, rfl, fun idx hi => rfl⟩
  err := fun h => absurd ⟨[], by simpa using isBroadcast_nil⟩ h

theorem Elem.un {V : List ι} {x : Arr α} {g : (ι → α) → α} (f : α → α) (h : Elem env V x g) :
    Elem env V (Arr.un f x) (fun ρ => f (g ρ)) where
  local_ := fun ρ ρ' hh => by rw [h.local_ ρ ρ' hh]
  ok := by
    intro s hs
    obtain ⟨A, rfl, rfl, hA⟩ := h.ok s hs
    exact ⟨_, rfl, rfl, fun idx hi => by simp only [hA idx hi]⟩
  err := by
    intro hn
    obtain ⟨e, rfl⟩ := h.err hn
    exact ⟨e, rfl⟩

theorem Elem.bin {V W : List ι} {x y : Arr α} {g h : (ι → α) → α} (f : α → α → α)
    (hx : Elem env V x g) (hy : Elem env W y h) :
    Elem env (V ++ W) (Arr.bin f x y) (fun ρ => f (g ρ) (h ρ)) where
  local_ := fun ρ ρ' hh => by
    rw [hx.local_ ρ ρ' (fun i hi => hh i (by simp [hi])),
      hy.local_ ρ ρ' (fun i hi => hh i (by simp [hi]))]
  ok := by
    intro u hu
    rw [List.map_append] at hu
    obtain ⟨s, hs⟩ := hu.sub (T := V.map fun i => (env i).shape) (fun t ht => by simp [ht])
    obtain ⟨t, ht⟩ := hu.sub (T := W.map fun i => (env i).shape)
      (fun t ht => List.mem_append.2 (Or.inr ht))
    have hb := (hs.append ht).1 hu
    obtain ⟨A, rfl, rfl, hA⟩ := hx.ok s hs
    obtain ⟨B, rfl, rfl, hB⟩ := hy.ok t ht
    refine ⟨⟨u, fun idx => f (A.get (opIdx A.shape idx)) (B.get (opIdx B.shape idx))⟩, ?_, rfl, ?_⟩
    · simp only [Arr.bin, hb]
    · intro idx hi
      obtain ⟨h1, h2⟩ := opIdx_inShape hb hi
      simp only
      rw [hA _ h1, hB _ h2]
      congr 1
      · refine hx.local_ _ _ fun i hiV => ?_
        rw [opIdx_opIdx hs (List.mem_map.2 ⟨i, hiV, rfl⟩)]
      · refine hy.local_ _ _ fun i hiW => ?_
        rw [opIdx_opIdx ht (List.mem_map.2 ⟨i, hiW, rfl⟩)]
  err := by
    intro hn
    rw [List.map_append] at hn
    by_cases h1 : ∃ s, IsBroadcast (V.map fun i => (env i).shape) s
    · by_cases h2 : ∃ s, IsBroadcast (W.map fun i => (env i).shape) s
      · obtain ⟨s, hs⟩ := h1
        obtain ⟨t, ht⟩ := h2
        obtain ⟨A, rfl, rfl, -⟩ := hx.ok s hs
        obtain ⟨B, rfl, rfl, -⟩ := hy.ok t ht
        cases hb : bshape A.shape B.shape with
        | some u => exact absurd ⟨u, (hs.append ht).2 hb⟩ hn
        | none => exact ⟨.incompatible, by simp only [Arr.bin, hb]⟩
      · obtain ⟨e, rfl⟩ := hy.err h2
        cases x with
        | error e' => exact ⟨e', rfl⟩
        | ok A => exact ⟨e, rfl⟩
    · obtain ⟨e, rfl⟩ := hx.err h1
      exact ⟨e, rfl⟩

theorem Elem.congr {V W : List ι} {x : Arr α} {g : (ι → α) → α} (h : Elem env V x g)
    (hVW : ∀ i, i ∈ V ↔ i ∈ W) : Elem env W x g where
  local_ := fun ρ ρ' hh => h.local_ ρ ρ' fun i hi => hh i ((hVW i).1 hi)
  ok := fun s hs => h.ok s ((Spec.IsBroadcast.congr (by simp [hVW])).1 hs)
  err := fun hn => h.err fun ⟨s, hs⟩ => hn ⟨s, (Spec.IsBroadcast.congr (by simp [hVW])).1 hs⟩

end Elem
end Adx
