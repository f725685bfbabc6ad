import Verif.Props.C79
import Verif.Props.C78c
import Mathlib.Analysis.Calculus.FDeriv.Symmetric

/-! # C79, continued: what `jax.hessian` returns -/

namespace Adx
open Spec Filter Topology
open scoped ContDiff

section
variable {V : Type} [NormedAddCommGroup V] [NormedSpace ℝ V] {ι : Type} {inp : ι → V} {dir : ℕ → V} {s : V} {g : V → ℝ}

/-- C79: the entry of the Hessian for input `i` and the direction of the forward pass, with the gradient as its value. -/
theorem C79_hessian {r : Rev ι (DualN 1)} (h : RJet inp dir g s r) (i : ι) :
    DualN.base 1 (r.grad i) = fderiv ℝ g s (inp i) ∧
    DualN.top 1 (r.grad i) = fderiv ℝ (fderiv ℝ g) s (dir 0) (inp i) := by
  refine ⟨(h.grad i).base, ?_⟩
  rw [(h.grad i).top, iteratedFDeriv_one_apply]
  have hd : DifferentiableAt ℝ (fderiv ℝ g) s :=
    (h.smooth.fderiv_right (m := ∞) (by simp)).differentiableAt (by simp)
  have e : along (inp i) g = fun y => fderiv ℝ g y (inp i) := rfl
  rw [e, fderiv_clm_apply hd (differentiableAt_const _)]
  simp

/-- C79: the Hessian is symmetric: entry `(i, j)` from the forward pass in direction `j`, entry `(j, i)` from the one in
direction `i`. -/
theorem C79_symmetric {dir' : ℕ → V} {r r' : Rev ι (DualN 1)} {i j : ι} (h : RJet inp dir g s r) (h' : RJet inp dir' g s r')
    (hj : dir 0 = inp j) (hi : dir' 0 = inp i) : DualN.top 1 (r.grad i) = DualN.top 1 (r'.grad j) := by
  rw [(C79_hessian h i).2, (C79_hessian h' j).2, hj, hi]
  exact ((h.smooth.of_le (m := ((2 : ℕ∞) : ℕ∞ω)) (WithTop.coe_le_coe.2 le_top)).isSymmSndFDerivAt (by simp)).eq _ _

/-- C79: forward over reverse mode and forward over forward mode return the same derivatives of every order. -/
theorem C79_modes_agree {n : ℕ} {r : Rev ι (DualN n)} {d : DualN (n + 1)} {i : ι} (h : RJet inp dir g s r)
    (hd : Jet dir g s d) (hi : dir n = inp i) : DualN.top n (r.grad i) = DualN.top (n + 1) d := by
  have hg := h.grad i
  rw [← hi] at hg
  obtain ⟨-, h2⟩ := carries_succ.1 hd.jet
  rw [hg.top]
  show _ = (Option.map (DualN.top n) (Dual.tan (α := DualN n) d)).getD 0
  generalize Dual.tan (α := DualN n) d = t at h2
  rcases t with _ | t
  · have h2 : along (dir n) g =ᶠ[𝓝 s] fun _ => 0 := h2
    have := ((Jet.nat (v := dir) (s := s) (n := n) 0).congr (h := along (dir n) g) (by simpa using h2)).top
    rw [← this]
    exact top_zero (by simpa using (Jet.nat (v := dir) (s := s) (n := n) 0).jet)
  · exact ((⟨hg.smooth, h2⟩ : Jet dir (along (dir n) g) s t).top).symm
end

/-- The Hessian of the orbital period with respect to the semimajor axis. -/
example : DualN.top 1 ((orb_period (Rev.input (fun _ : Unit => DualN.input (fun _ => 1) 1 1) ())
    (Rev.const (DualN.const 1 1))).grad ()) = 3 * Real.pi / 2 := by
  have hi : RJet (fun _ : Unit => (1 : ℝ)) (fun _ => (1 : ℝ)) (fun a : ℝ => a) 1
      (Rev.input (fun _ : Unit => DualN.input (fun _ => 1) 1 1) ()) :=
    RJet.input (u := fun _ : Unit => (1 : ℝ)) (v := fun _ => (1 : ℝ)) (s := (1 : ℝ)) (fun _ => ContinuousLinearMap.id ℝ ℝ)
      (by simp) ()
  have hf : Jet (fun _ => (1 : ℝ)) (fun a : ℝ => a) 1 (DualN.input (fun _ => 1) 1 2) :=
    Jet.input (v := fun _ => (1 : ℝ)) (s := (1 : ℝ)) (ContinuousLinearMap.id ℝ ℝ) 2
  rw [← orb_period_second]
  exact C79_modes_agree (C79_orb_period hi (RJet.const 1) one_pos one_pos) (C78_orb_period hf (Jet.const 1) one_pos one_pos) rfl

/-- C79, refuted for the universal functions at `α = 0`: the entry `(χ, α)` of the Hessian of `U₂` comes out as 0 instead of
`-χ³/6`. -/
theorem C79_ufunc_refuted (χ : ℝ) :
    DualN.top 1 ((ufunc2 (Rev.input (fun i : Bool => DualN.input (fun _ => if i then 0 else 1) (if i then 0 else χ) 1) false)
      (Rev.input (fun i : Bool => DualN.input (fun _ => if i then 0 else 1) (if i then 0 else χ) 1) true)).grad true) = 0 ∧
    HasDerivAt (fun x => deriv (fun a => ufunc2 x a) 0) (-χ ^ 3 / 6) χ := by
  refine ⟨?_, (C78_ufunc_refuted χ).2⟩
  set L : Bool → (ℝ × ℝ) →L[ℝ] ℝ := fun i => if i then ContinuousLinearMap.snd ℝ ℝ ℝ else ContinuousLinearMap.fst ℝ ℝ ℝ with hL
  set u : Bool → ℝ × ℝ := fun i => if i then (0, 1) else (1, 0)
  have key : ∀ i, RJet u (fun _ => ((1, 0) : ℝ × ℝ)) (L i) (χ, 0)
      (Rev.input (fun i : Bool => DualN.input (fun _ => if i then 0 else 1) (if i then 0 else χ) 1) i) := by
    intro i
    have := RJet.input (u := u) (v := fun _ => ((1, 0) : ℝ × ℝ)) (s := ((χ, 0) : ℝ × ℝ)) (n := 1) L
      (by intro i j; cases i <;> cases j <;> simp [L, u]) i
    have e : (fun i : Bool => DualN.input (fun _ => if i then (0 : ℝ) else 1) (if i then (0 : ℝ) else χ) 1)
        = fun i => DualN.input (fun k => L i ((fun _ => ((1, 0) : ℝ × ℝ)) k)) (L i (χ, 0)) 1 := by
      funext i
      cases i <;> simp [L]
    rw [e]
    exact this
  obtain ⟨-, -, h, -⟩ := C79_ufunc_at_zero (key false) (key true) (by simp [L])
  have hz : along (u true) (fun s : ℝ × ℝ => ufunc2 (L false s) 0) = fun _ => 0 := by
    funext y
    have hu : (fun s : ℝ × ℝ => ufunc2 (L false s) 0) = fun s : ℝ × ℝ => s.1 ^ 2 / 2 := by
      funext s; simp [ufunc2, L]
    have hf : HasFDerivAt (fun s : ℝ × ℝ => s.1 ^ 2 / 2) _ y :=
      (((hasFDerivAt_fst (𝕜 := ℝ) (p := y)).pow 2).mul_const (1 / 2 : ℝ)).congr_of_eventuallyEq (.of_eq (by funext s; simp; ring))
    rw [along, hu, hf.fderiv]
    simp [u]
  have hg := (h.grad true).jet
  rw [hz] at hg
  exact top_zero hg

end Adx
