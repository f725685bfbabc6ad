import Verif.Spec.Gravity
import Verif.Lemmas.RealVec

/-! # Derivative lemmas for vector curves -/

namespace Adx
open V3

theorem radius_eq_norm (p : V3 ℝ) : Spec.radius p = V3.norm p := by
  simp only [Spec.radius, V3.norm, dot, sqrt_real, sq]

variable {f g : ℝ → V3 ℝ} {f' g' : V3 ℝ} {s : ℝ}

theorem HasDerivV.dot (hf : HasDerivV f f' s) (hg : HasDerivV g g' s) :
    HasDerivAt (fun s => V3.dot (f s) (g s)) (V3.dot f' (g s) + V3.dot (f s) g') s := by
  refine (((hf.x.fun_mul hg.x).fun_add (hf.y.fun_mul hg.y)).fun_add (hf.z.fun_mul hg.z)).congr_deriv ?_
  simp only [V3.dot]; ring

theorem HasDerivV.norm (hf : HasDerivV f f' s) (h0 : V3.norm (f s) ≠ 0) :
    HasDerivAt (fun s => V3.norm (f s)) (V3.dot (f s) f' / V3.norm (f s)) s := by
  have hd : V3.dot (f s) (f s) ≠ 0 := by rw [← norm_mul_self]; exact mul_ne_zero h0 h0
  refine ((hf.dot hf).sqrt hd).congr_deriv ?_
  rw [dot_comm f' (f s)]
  simp only [V3.norm, sqrt_real]
  ring

theorem HasDerivV.smul {k : ℝ → ℝ} {k' : ℝ} (hk : HasDerivAt k k' s) (hf : HasDerivV f f' s) :
    HasDerivV (fun s => k s • f s) (k' • f s + k s • f') s :=
  ⟨hk.fun_mul hf.x, hk.fun_mul hf.y, hk.fun_mul hf.z⟩

theorem HasDerivV.add (hf : HasDerivV f f' s) (hg : HasDerivV g g' s) :
    HasDerivV (fun s => f s + g s) (f' + g') s :=
  ⟨hf.x.fun_add hg.x, hf.y.fun_add hg.y, hf.z.fun_add hg.z⟩

theorem HasDerivV.sub (hf : HasDerivV f f' s) (hg : HasDerivV g g' s) :
    HasDerivV (fun s => f s - g s) (f' - g') s :=
  ⟨hf.x.fun_sub hg.x, hf.y.fun_sub hg.y, hf.z.fun_sub hg.z⟩

theorem HasDerivV.cross (hf : HasDerivV f f' s) (hg : HasDerivV g g' s) :
    HasDerivV (fun s => V3.cross (f s) (g s)) (V3.cross f' (g s) + V3.cross (f s) g') s := by
  constructor
  · refine ((hf.y.fun_mul hg.z).fun_sub (hf.z.fun_mul hg.y)).congr_deriv ?_
    simp only [V3.cross, add_x]; ring
  · refine ((hf.z.fun_mul hg.x).fun_sub (hf.x.fun_mul hg.z)).congr_deriv ?_
    simp only [V3.cross, add_y]; ring
  · refine ((hf.x.fun_mul hg.y).fun_sub (hf.y.fun_mul hg.x)).congr_deriv ?_
    simp only [V3.cross, add_z]; ring

theorem hasDerivV_const (a : V3 ℝ) (s : ℝ) : HasDerivV (fun _ => a) ⟨0, 0, 0⟩ s :=
  ⟨hasDerivAt_const s _, hasDerivAt_const s _, hasDerivAt_const s _⟩

theorem HasDerivV.congr_deriv (hf : HasDerivV f f' s) (h : f' = g') : HasDerivV f g' s := h ▸ hf

theorem HasDerivV.scomp {k : ℝ → ℝ} {k' : ℝ} (hf : HasDerivV f f' (k s)) (hk : HasDerivAt k k' s) :
    HasDerivV (fun s => f (k s)) (k' • f') s := by
  refine ⟨(hf.x.comp s hk).congr_deriv ?_, (hf.y.comp s hk).congr_deriv ?_,
    (hf.z.comp s hk).congr_deriv ?_⟩ <;> simp [mul_comm]

end Adx
