import Verif.Spec.Hess
import Verif.Lemmas.Jet

/-! # Forward mode over reverse mode, rule by rule -/

namespace Adx
namespace Spec
open Filter Topology
open scoped ContDiff

variable {E : Type} [NormedAddCommGroup E] [NormedSpace ℝ E] {ι : Type} {n : ℕ} {u : ι → E} {v : ℕ → E} {s : E}

/-- A rule with one argument. -/
theorem PullsBack.pre {F G H : E → ℝ} {a : Rev ι (DualN n)} (ha : RJet u v F s a) {f : DualN n → DualN n}
    (hf : ∀ C ct, Jet v C s ct → Jet v (fun y => C y * H y) s (f ct))
    (hG : ∀ i, along (u i) G =ᶠ[𝓝 s] fun y => along (u i) F y * H y) : PullsBack u v G s (a.pre f) := by
  obtain ⟨-, hp⟩ := ha
  unfold Rev.pre
  revert hp
  rcases a.adj with _ | b
  · intro hp i
    filter_upwards [hG i, hp i] with y h1 h2
    rw [h1, h2, zero_mul]
  · intro hp C ct hC i
    refine (hp _ _ (hf C ct hC) i).congr ?_
    filter_upwards [hG i] with y h1
    rw [h1]; ring

/-- A rule with two arguments. -/
theorem PullsBack.pre2 {F₁ F₂ G H₁ H₂ : E → ℝ} {a b : Rev ι (DualN n)} (ha : RJet u v F₁ s a) (hb : RJet u v F₂ s b)
    {f g : DualN n → DualN n}
    (hf : ∀ C ct, Jet v C s ct → Jet v (fun y => C y * H₁ y) s (f ct))
    (hg : ∀ C ct, Jet v C s ct → Jet v (fun y => C y * H₂ y) s (g ct))
    (hG : ∀ i, along (u i) G =ᶠ[𝓝 s] fun y => along (u i) F₁ y * H₁ y + along (u i) F₂ y * H₂ y) :
    PullsBack u v G s (Rev.addAdj (a.pre f) (b.pre g)) := by
  obtain ⟨-, hp⟩ := ha
  obtain ⟨-, hq⟩ := hb
  unfold Rev.pre
  revert hp hq
  rcases a.adj with _ | c <;> rcases b.adj with _ | d
  · intro hp hq i
    filter_upwards [hG i, hp i, hq i] with y h1 h2 h3
    rw [h1, h2, h3]; ring
  · intro hp hq C ct hC i
    refine (hq _ _ (hg C ct hC) i).congr ?_
    filter_upwards [hG i, hp i] with y h1 h2
    rw [h1, h2]; ring
  · intro hp hq C ct hC i
    refine (hp _ _ (hf C ct hC) i).congr ?_
    filter_upwards [hG i, hq i] with y h1 h2
    rw [h1, h2]; ring
  · intro hp hq C ct hC i
    refine ((hp _ _ (hf C ct hC) i).add (hq _ _ (hg C ct hC) i)).congr ?_
    filter_upwards [hG i] with y h1
    rw [h1]; ring

theorem pre_id (a : Rev ι (DualN n)) : a.adj = a.pre id := by
  unfold Rev.pre
  cases a.adj <;> rfl

namespace RJet
variable {g h : E → ℝ} {a b : Rev ι (DualN n)}

theorem smooth (ha : RJet u v g s a) : ContDiffAt ℝ ∞ g s := ha.val.smooth

theorem congr (ha : RJet u v g s a) (hgh : h =ᶠ[𝓝 s] g) : RJet u v h s a := by
  refine ⟨ha.val.congr hgh, ?_⟩
  have hp := ha.pull
  revert hp
  rcases a.adj with _ | c
  · exact fun hp i => (along_congr hgh _).trans (hp i)
  · intro hp C ct hC i
    refine (hp C ct hC i).congr ?_
    filter_upwards [along_congr hgh (u i)] with y hy
    rw [hy]

theorem cst {c : ℝ} {d : DualN n} (h : Jet v (fun _ => c) s d) : RJet u v (fun _ => c) s (⟨d, none⟩ : Rev ι (DualN n)) :=
  ⟨h, fun _ => along_const _ _⟩

theorem nat (k : ℕ) : RJet u v (fun _ => (k : ℝ)) s (k : Rev ι (DualN n)) := cst (Jet.nat k)
theorem pi : RJet u v (fun _ => Real.pi) s (JFun.pi : Rev ι (DualN n)) := cst Jet.pi
theorem const (c : ℝ) : RJet u v (fun _ => c) s (Rev.const (DualN.const n c)) := cst (Jet.const c)

/-- Input number `i`, the value of a linear coordinate: `L i (u j)` is 1 for `i = j` and 0 otherwise. -/
theorem input [DecidableEq ι] (L : ι → E →L[ℝ] ℝ) (hL : ∀ i j, L i (u j) = if j = i then 1 else 0) (i : ι) :
    RJet u v (L i) s (Rev.input (fun i => DualN.input (fun k => L i (v k)) (L i s) n) i) := by
  refine ⟨Jet.input (L i) n, fun C ct hC j => ?_⟩
  have e1 : along (u j) (L i : E → ℝ) = fun _ => if j = i then 1 else 0 := by
    funext y; simp [along, hL]
  rw [e1]
  by_cases hij : j = i
  · simpa [hij] using hC
  · have := Jet.nat (v := v) (s := s) (n := n) 0
    simpa [hij] using this

theorem add (ha : RJet u v g s a) (hb : RJet u v h s b) : RJet u v (fun s => g s + h s) s (a + b) := by
  refine ⟨ha.val.add hb.val, ?_⟩
  show PullsBack u v _ s (Rev.addAdj a.adj b.adj)
  rw [pre_id a, pre_id b]
  refine PullsBack.pre2 (H₁ := fun _ => 1) (H₂ := fun _ => 1) ha hb (fun C ct hC => by simpa using hC)
    (fun C ct hC => by simpa using hC) fun i =>
    (rule2 (φ' := (· + ·)) (P := fun _ _ => True) ha.val.smooth hb.val.smooth (ha.val.smooth.add hb.val.smooth) (by simp)
      fun _ _ _ _ h1 h2 _ => h1.add h2).trans (.of_eq ?_)
  funext y
  show along (u i) g y + along (u i) h y = _
  ring
theorem sub (ha : RJet u v g s a) (hb : RJet u v h s b) : RJet u v (fun s => g s - h s) s (a - b) := by
  refine ⟨ha.val.sub hb.val, ?_⟩
  show PullsBack u v _ s (Rev.addAdj a.adj (b.pre fun ct => -ct))
  rw [pre_id a]
  refine PullsBack.pre2 (H₁ := fun _ => 1) (H₂ := fun _ => -1) ha hb (fun C ct hC => by simpa using hC)
    (fun C ct hC => by simpa using hC.neg) fun i =>
    (rule2 (φ' := (· - ·)) (P := fun _ _ => True) ha.val.smooth hb.val.smooth (ha.val.smooth.sub hb.val.smooth) (by simp)
      fun _ _ _ _ h1 h2 _ => h1.sub h2).trans (.of_eq ?_)
  funext y
  show along (u i) g y + -along (u i) h y = _
  ring
theorem neg (ha : RJet u v g s a) : RJet u v (fun s => -g s) s (-a) := by
  refine ⟨ha.val.neg, PullsBack.pre (H := fun _ => -1) ha (fun C ct hC => by simpa using hC.neg) fun i =>
    (rule1 (φ' := (- ·)) (P := fun _ => True) ha.val.smooth ha.val.smooth.neg (by simp)
      fun _ _ h1 _ => h1.neg).trans (.of_eq ?_)⟩
  funext y
  show -along (u i) g y = _
  ring
theorem mul (ha : RJet u v g s a) (hb : RJet u v h s b) : RJet u v (fun s => g s * h s) s (a * b) := by
  refine ⟨ha.val.mul hb.val, PullsBack.pre2 (H₁ := h) (H₂ := g) ha hb (fun C ct hC => hC.mul hb.val)
    (fun C ct hC => (ha.val.mul hC).congr (.of_eq (by funext y; ring))) fun i =>
    (rule2 (φ' := (· * ·)) (P := fun _ _ => True) ha.val.smooth hb.val.smooth (ha.val.smooth.mul hb.val.smooth) (by simp)
      fun _ _ _ _ h1 h2 _ => h1.mul h2).trans (.of_eq ?_)⟩
  funext y
  show along (u i) g y * h y + g y * along (u i) h y = _
  ring
theorem div (ha : RJet u v g s a) (hb : RJet u v h s b) (h0 : h s ≠ 0) : RJet u v (fun s => g s / h s) s (a / b) := by
  refine ⟨ha.val.div hb.val h0, PullsBack.pre2 (H₁ := fun y => 1 / h y) (H₂ := fun y => -(1 / h y ^ 2 * g y)) ha hb
    (fun C ct hC => (hC.div hb.val h0).congr (.of_eq (by funext y; ring)))
    (fun C ct hC => (((hC.mul ((Jet.nat 1).div (hb.val.pow 2) (pow_ne_zero 2 h0))).mul ha.val).neg).congr
      (.of_eq (by funext y; push_cast; ring))) fun i =>
    (rule2 (φ' := (· / ·)) (P := fun _ b => b ≠ 0) ha.val.smooth hb.val.smooth (ha.val.smooth.div hb.val.smooth h0)
      (ev_ne hb.val.smooth h0) fun _ _ _ _ h1 h2 h3 => h1.div h2 h3).trans (.of_eq ?_)⟩
  funext y
  show along (u i) g y / h y + -along (u i) h y * g y * (((1 : ℕ) : ℝ) / h y ^ 2) = _
  push_cast
  ring
theorem pow (ha : RJet u v g s a) (k : ℕ) : RJet u v (fun s => g s ^ k) s (a ^ k) := by
  have hr := fun i => rule1 (w := u i) (φ := fun r => r ^ k) (φ' := fun d => d ^ k) (P := fun _ => True) ha.val.smooth
    (ha.val.smooth.pow k) (by simp) fun _ _ h1 _ => h1.pow k
  refine ⟨ha.val.pow k, ?_⟩
  show PullsBack u v _ s (a.pre fun ct => if k = 0 then ℓ 0 else ct * (Nat.cast k * a.val ^ (k - 1)))
  rcases Nat.eq_zero_or_pos k with rfl | hk
  · refine PullsBack.pre (H := fun _ => 0) ha (fun C ct hC => ?_) fun i => (hr i).trans (.of_eq ?_)
    · have := Jet.nat (v := v) (s := s) (n := n) 0
      simpa using this
    · funext y
      show ((some (along (u i) g y)).map fun t : ℝ => if (0 : ℕ) = 0 then ((0 : ℕ) : ℝ) else t * (((0 : ℕ) : ℝ) * g y ^ (0 - 1))).getD 0 = _
      simp
  · refine PullsBack.pre (H := fun y => (k : ℝ) * g y ^ (k - 1)) ha (fun C ct hC => ?_) fun i => (hr i).trans (.of_eq ?_)
    · simp only [hk.ne', if_false]
      exact hC.mul ((Jet.nat k).mul (ha.val.pow _))
    · funext y
      show ((some (along (u i) g y)).map fun t : ℝ => if k = 0 then ((0 : ℕ) : ℝ) else t * ((k : ℝ) * g y ^ (k - 1))).getD 0 = _
      simp [hk.ne']
theorem sqrt (ha : RJet u v g s a) (h0 : 0 < g s) : RJet u v (fun s => Real.sqrt (g s)) s (JFun.sqrt a) :=
  ⟨ha.val.sqrt h0, PullsBack.pre ha
    (fun C ct hC => hC.mul (((Jet.nat 1).div (Jet.nat 2) (by norm_num)).div (ha.val.sqrt h0) (Real.sqrt_pos.2 h0).ne')) fun i =>
    rule1 (φ' := JFun.sqrt) (P := fun r => 0 < r) ha.val.smooth (ha.val.sqrt h0).smooth (ev_pos ha.val.smooth h0)
      fun _ _ h1 h2 => h1.sqrt h2⟩
theorem cbrt (ha : RJet u v g s a) (h0 : 0 < g s) : RJet u v (fun s => realCbrt (g s)) s (JFun.cbrt a) :=
  ⟨ha.val.cbrt h0, PullsBack.pre ha
    (fun C ct hC => hC.mul (((Jet.nat 1).div (Jet.nat 3) (by norm_num)).mul ((Jet.nat 1).div ((ha.val.cbrt h0).pow 2) (by
      rw [realCbrt, if_pos h0.le]; positivity)))) fun i =>
    rule1 (φ' := JFun.cbrt) (P := fun r => 0 < r) ha.val.smooth (ha.val.cbrt h0).smooth (ev_pos ha.val.smooth h0)
      fun _ _ h1 h2 => h1.cbrt h2⟩
theorem sin (ha : RJet u v g s a) : RJet u v (fun s => Real.sin (g s)) s (JFun.sin a) :=
  ⟨ha.val.sin, PullsBack.pre ha (fun C ct hC => hC.mul ha.val.cos) fun i =>
    rule1 (φ' := JFun.sin) (P := fun _ => True) ha.val.smooth ha.val.smooth.sin (by simp) fun _ _ h1 _ => h1.sin⟩
theorem cos (ha : RJet u v g s a) : RJet u v (fun s => Real.cos (g s)) s (JFun.cos a) := by
  refine ⟨ha.val.cos, PullsBack.pre (H := fun y => -Real.sin (g y)) ha
    (fun C ct hC => (hC.neg.mul ha.val.sin).congr (.of_eq (by funext y; ring))) fun i =>
    (rule1 (φ' := JFun.cos) (P := fun _ => True) ha.val.smooth ha.val.smooth.cos (by simp) fun _ _ h1 _ => h1.cos).trans
      (.of_eq ?_)⟩
  funext y
  show -(along (u i) g y * Real.sin (g y)) = _
  ring
theorem sinh (ha : RJet u v g s a) : RJet u v (fun s => Real.sinh (g s)) s (JFun.sinh a) :=
  ⟨ha.val.sinh, PullsBack.pre ha (fun C ct hC => hC.mul ha.val.cosh) fun i =>
    rule1 (φ' := JFun.sinh) (P := fun _ => True) ha.val.smooth ha.val.smooth.sinh (by simp) fun _ _ h1 _ => h1.sinh⟩
theorem cosh (ha : RJet u v g s a) : RJet u v (fun s => Real.cosh (g s)) s (JFun.cosh a) :=
  ⟨ha.val.cosh, PullsBack.pre ha (fun C ct hC => hC.mul ha.val.sinh) fun i =>
    rule1 (φ' := JFun.cosh) (P := fun _ => True) ha.val.smooth ha.val.smooth.cosh (by simp) fun _ _ h1 _ => h1.cosh⟩
theorem log (ha : RJet u v g s a) (h0 : g s ≠ 0) : RJet u v (fun s => Real.log (g s)) s (JFun.log a) := by
  refine ⟨ha.val.log h0, PullsBack.pre (H := fun y => (g y)⁻¹) ha (fun C ct hC => hC.div ha.val h0) fun i =>
    rule1 (φ' := JFun.log) (P := fun r => r ≠ 0) ha.val.smooth (ha.val.log h0).smooth (ev_ne ha.val.smooth h0)
      fun _ _ h1 h2 => h1.log h2⟩
theorem arccos (ha : RJet u v g s a) (h0 : -1 < g s) (h1 : g s < 1) : RJet u v (fun s => Real.arccos (g s)) s (JFun.arccos a) := by
  have hs0 : (0 : ℝ) < ((1 : ℕ) : ℝ) - g s ^ 2 := by
    have : g s ^ 2 < 1 := by nlinarith
    simpa using this
  exact ⟨ha.val.arccos h0 h1, PullsBack.pre ha
    (fun C ct hC => hC.mul (((Jet.nat 1).div (((Jet.nat 1).sub (ha.val.pow 2)).sqrt hs0) (Real.sqrt_pos.2 hs0).ne').neg)) fun i =>
    rule1 (φ' := JFun.arccos) (P := fun r => r ≠ -1 ∧ r ≠ 1) ha.val.smooth (ha.val.arccos h0 h1).smooth
        ((ev_ne ha.val.smooth h0.ne').and (ev_ne ha.val.smooth h1.ne)) fun _ _ h1 h2 => h1.arccos h2.1 h2.2⟩

/-- The pullback of `arctan2` for any smooth branch. -/
theorem arctan2_aux (ha : RJet u v g s a) (hb : RJet u v h s b) (hs0 : g s ^ 2 + h s ^ 2 ≠ 0) {G : E → ℝ}
    (hG : ∀ i, along (u i) G =ᶠ[𝓝 s] fun y => along (u i) g y * (h y / (g y ^ 2 + h y ^ 2))
      + along (u i) h y * -g y / (g y ^ 2 + h y ^ 2)) :
    PullsBack u v G s (JFun.arctan2 a b : Rev ι (DualN n)).adj :=
  PullsBack.pre2 (H₁ := fun y => h y / (g y ^ 2 + h y ^ 2)) (H₂ := fun y => -g y / (g y ^ 2 + h y ^ 2)) ha hb
    (fun _ _ hC => hC.mul (hb.val.div ((ha.val.pow 2).add (hb.val.pow 2)) hs0))
    (fun _ _ hC => ((hC.div ((ha.val.pow 2).add (hb.val.pow 2)) hs0).mul ha.val.neg).congr (.of_eq (by funext y; ring)))
    fun i => (hG i).trans (.of_eq (by funext y; ring))

theorem arctan2 (ha : RJet u v g s a) (hb : RJet u v h s b) (h0 : 0 < h s ∨ g s ≠ 0) :
    RJet u v (fun s => Complex.arg ⟨h s, g s⟩) s (JFun.arctan2 a b) := by
  have hs0 : g s ^ 2 + h s ^ 2 ≠ 0 := by
    rcases h0 with h' | h'
    · positivity
    · positivity
  have hev : ∀ᶠ y in 𝓝 s, (0 < h y ∨ g y ≠ 0) := by
    rcases h0 with h | h
    · exact (ev_pos hb.val.smooth h).mono fun _ hy => Or.inl hy
    · exact (ev_ne ha.val.smooth h).mono fun _ hy => Or.inr hy
  exact ⟨ha.val.arctan2 hb.val h0, arctan2_aux ha hb hs0 fun i =>
    rule2 (φ := fun r q => Complex.arg ⟨q, r⟩) (φ' := JFun.arctan2) (P := fun r q => 0 < q ∨ r ≠ 0) ha.val.smooth hb.val.smooth
      (ha.val.arctan2 hb.val h0).smooth hev fun _ _ _ _ h1 h2 h3 => h1.arctan2 h2 h3⟩

/-- on the cut -/
theorem arctan2_cut (ha : RJet u v g s a) (hb : RJet u v h s b) (h0 : h s < 0) (h1 : g s = 0) :
    RJet u v (fun s => Real.pi + Complex.arg ⟨-h s, -g s⟩) s (JFun.arctan2 a b) := by
  have hj := ha.val.arctan2_cut hb.val h0 h1
  have hs0 : g s ^ 2 + h s ^ 2 ≠ 0 := by rw [h1]; nlinarith
  refine ⟨hj, arctan2_aux ha hb hs0 fun i => ?_⟩
  have hr := rule2 (w := u i) (φ := fun r q => Real.pi + Complex.arg ⟨-q, -r⟩)
      (φ' := fun a b => ⟨Real.pi, none⟩ + JFun.arctan2 (-a) (-b)) (P := fun _ q => q < 0) ha.val.smooth hb.val.smooth hj.smooth
      (hb.val.smooth.continuousAt.eventually (gt_mem_nhds h0))
      fun _ _ _ _ h1 h2 h3 => (Tracks.const Real.pi).add (h1.neg.arctan2 h2.neg (Or.inl (neg_pos.2 h3)))
  refine hr.trans (.of_eq ?_)
  funext y
  show -along (u i) g y * (-h y / ((-g y) ^ 2 + (-h y) ^ 2)) + -along (u i) h y * -(-g y) / ((-g y) ^ 2 + (-h y) ^ 2) = _
  ring

theorem abs (ha : RJet u v g s a) (h0 : g s ≠ 0) : RJet u v (fun s => |g s|) s (JFun.abs a) := by
  refine ⟨ha.val.abs h0, ?_⟩
  show PullsBack u v _ s (a.pre fun ct => ct * Dual.sign a.val)
  have l1 := ha.val.zero_lt
  have l2 := ha.val.lt_zero
  rcases lt_or_gt_of_ne h0 with hn | hp
  · have hs : Dual.sign a.val = -(ℓ 1 : DualN n) := by simp [Dual.sign, l1, l2, hn, hn.not_gt]
    rw [hs]
    refine PullsBack.pre (H := fun _ => -1) ha (fun C ct hC => by simpa using hC.mul (Jet.nat 1).neg) fun i => ?_
    have e : (fun y => |g y|) =ᶠ[𝓝 s] fun y => -g y := by
      filter_upwards [ha.val.smooth.continuousAt.eventually (gt_mem_nhds hn)] with y hy using abs_of_neg hy
    refine (along_congr e _).trans ((rule1 (φ' := (- ·)) (P := fun _ => True) ha.val.smooth ha.val.smooth.neg (by simp)
      fun _ _ h1 _ => h1.neg).trans (.of_eq ?_))
    funext y
    show -along (u i) g y = _
    ring
  · have hs : Dual.sign a.val = (ℓ 1 : DualN n) := by simp [Dual.sign, l1, hp]
    rw [hs]
    refine PullsBack.pre (H := fun _ => 1) ha (fun C ct hC => by simpa using hC.mul (Jet.nat 1)) fun i => ?_
    have e : (fun y => |g y|) =ᶠ[𝓝 s] g := by
      filter_upwards [ha.val.smooth.continuousAt.eventually (lt_mem_nhds hp)] with y hy using abs_of_pos hy
    exact (along_congr e _).trans (.of_eq (by funext y; ring))

theorem maximum (ha : RJet u v g s a) (hb : RJet u v h s b) (h0 : g s ≠ h s) :
    RJet u v (fun s => max (g s) (h s)) s (JFun.maximum a b) := by
  refine ⟨ha.val.maximum hb.val h0, ?_⟩
  show PullsBack u v _ s (Rev.addAdj (a.pre fun ct => ct * Dual.share a.val b.val) (b.pre fun ct => ct * Dual.share b.val a.val))
  have l1 := ha.val.lt hb.val
  have l2 := hb.val.lt ha.val
  rcases lt_or_gt_of_ne h0 with hl | hl
  · have s1 : Dual.share a.val b.val = (ℓ 0 : DualN n) := by simp [Dual.share, l1, l2, hl, hl.not_gt]
    have s2 : Dual.share b.val a.val = (ℓ 1 : DualN n) := by simp [Dual.share, l1, hl]
    rw [s1, s2]
    refine PullsBack.pre2 (H₁ := fun _ => 0) (H₂ := fun _ => 1) ha hb (fun C ct hC => by simpa using hC.mul (Jet.nat 0))
      (fun C ct hC => by simpa using hC.mul (Jet.nat 1)) fun i => ?_
    exact (along_congr (max_ev' ha.val.smooth hb.val.smooth hl) _).trans (.of_eq (by funext y; ring))
  · have s1 : Dual.share a.val b.val = (ℓ 1 : DualN n) := by simp [Dual.share, l2, hl]
    have s2 : Dual.share b.val a.val = (ℓ 0 : DualN n) := by simp [Dual.share, l1, l2, hl, hl.not_gt]
    rw [s1, s2]
    refine PullsBack.pre2 (H₁ := fun _ => 1) (H₂ := fun _ => 0) ha hb (fun C ct hC => by simpa using hC.mul (Jet.nat 1))
      (fun C ct hC => by simpa using hC.mul (Jet.nat 0)) fun i => ?_
    exact (along_congr (max_ev ha.val.smooth hb.val.smooth hl) _).trans (.of_eq (by funext y; ring))

theorem floor (ha : RJet u v g s a) (h0 : g s ≠ ⌊g s⌋) : RJet u v (fun s => (⌊g s⌋ : ℝ)) s (JFun.floor a) :=
  ⟨ha.val.floor h0, fun _ => (along_congr (floor_ev ha.val.smooth h0) _).trans (along_const _ _)⟩
theorem onesLike (a : Rev ι (DualN n)) : RJet u v (fun _ => 1) s (JFun.onesLike a) := cst (Jet.onesLike a.val)
theorem item (ha : RJet u v g s a) : RJet u v (fun _ => g s) s (JFun.item a) := cst ha.val.item
theorem lt (ha : RJet u v g s a) (hb : RJet u v h s b) : JFun.lt a b = decide (g s < h s) := ha.val.lt hb.val
theorem lt_zero (ha : RJet u v g s a) : JFun.lt a (ℓ 0 : Rev ι (DualN n)) = decide (g s < 0) := ha.val.lt_zero
theorem zero_lt (ha : RJet u v g s a) : JFun.lt (ℓ 0 : Rev ι (DualN n)) a = decide (0 < g s) := ha.val.zero_lt

/-- The gradient, with all derivatives. -/
theorem grad (ha : RJet u v g s a) (i : ι) : Jet v (along (u i) g) s (a.grad i) := by
  have hp := ha.pull
  unfold Rev.grad
  revert hp
  rcases a.adj with _ | c
  · intro hp
    refine (Jet.nat 0).congr ?_
    simpa using hp i
  · intro hp
    simpa using hp _ _ (Jet.nat 1) i

end RJet
end Spec
end Adx
