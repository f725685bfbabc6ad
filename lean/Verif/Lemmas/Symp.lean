import Verif.Lemmas.Stm

/-! # Algebraic identities behind the symplecticity of `dxdx0` -/

namespace Adx
open Spec V3

/-- Variation of `F` from those of `|r0|` (`rp`), `α` (`ap`) and the anomaly (`X`). -/
noncomputable def vF (r0 U1 U2 rp ap X : ℝ) : ℝ := -((U1 * X - ap * U2 ^ 2 / 2) * r0 - U2 * rp) / r0 ^ 2
/-- Variation of `G`. -/
noncomputable def vG (r0 α σ0 w U1 U2 rp ap sp X : ℝ) : ℝ :=
  (rp * U1 + r0 * ((1 - α * U2) * X - ap * (U1 * U2) / 2) + sp * U2 + σ0 * (U1 * X - ap * U2 ^ 2 / 2)) / w
/-- Variation of `Ft`. -/
noncomputable def vFt (r0 R α σ0 w U1 U2 rp ap sp X : ℝ) : ℝ :=
  -w * (((1 - α * U2) * X - ap * (U1 * U2) / 2) / (R * r0)
        - U1 * (rp * (1 - α * U2) + r0 * (-(α * U1) * X - ap * U1 ^ 2 / 2) + sp * U1
            + σ0 * ((1 - α * U2) * X - ap * (U1 * U2) / 2) + (U1 * X - ap * U2 ^ 2 / 2)) / (R ^ 2 * r0)
        - U1 * rp / (R * r0 ^ 2))
/-- Variation of `Gt`. -/
noncomputable def vGt (r0 R α σ0 U1 U2 rp ap sp X : ℝ) : ℝ :=
  -((U1 * X - ap * U2 ^ 2 / 2) * R
        - U2 * (rp * (1 - α * U2) + r0 * (-(α * U1) * X - ap * U1 ^ 2 / 2) + sp * U1
            + σ0 * ((1 - α * U2) * X - ap * (U1 * U2) / 2) + (U1 * X - ap * U2 ^ 2 / 2))) / R ^ 2

set_option linter.unusedSectionVars false

section
variable {r0 R w C α σ0 U1 U2 Fa Ga Ta Sa Fb Gb Tb Sb Fd Gd Td Sd : ℝ} (h0 : r0 ≠ 0) (hR : R ≠ 0) (hw : w ≠ 0)
  (hFa : Fa = vF r0 U1 U2 (1 / r0) (-2 / r0 ^ 3) (-(U1 / r0 - w * C / r0 ^ 3) / R))
  (hGa : Ga = vG r0 α σ0 w U1 U2 (1 / r0) (-2 / r0 ^ 3) 0 (-(U1 / r0 - w * C / r0 ^ 3) / R))
  (hTa : Ta = vFt r0 R α σ0 w U1 U2 (1 / r0) (-2 / r0 ^ 3) 0 (-(U1 / r0 - w * C / r0 ^ 3) / R))
  (hSa : Sa = vGt r0 R α σ0 U1 U2 (1 / r0) (-2 / r0 ^ 3) 0 (-(U1 / r0 - w * C / r0 ^ 3) / R))
  (hFb : Fb = vF r0 U1 U2 0 0 (-(U2 / w) / R))
  (hGb : Gb = vG r0 α σ0 w U1 U2 0 0 (1 / w) (-(U2 / w) / R))
  (hTb : Tb = vFt r0 R α σ0 w U1 U2 0 0 (1 / w) (-(U2 / w) / R))
  (hSb : Sb = vGt r0 R α σ0 U1 U2 0 0 (1 / w) (-(U2 / w) / R))
  (hFd : Fd = vF r0 U1 U2 0 (-2 / w ^ 2) (C / w / R))
  (hGd : Gd = vG r0 α σ0 w U1 U2 0 (-2 / w ^ 2) 0 (C / w / R))
  (hTd : Td = vFt r0 R α σ0 w U1 U2 0 (-2 / w ^ 2) 0 (C / w / R))
  (hSd : Sd = vGt r0 R α σ0 U1 U2 0 (-2 / w ^ 2) 0 (C / w / R))
  (hRe : R = r0 * (1 - α * U2) + σ0 * U1 + U2) (h1 : U1 ^ 2 = U2 * (2 - α * U2))
include h0 hR hw hFa hGa hTa hSa hFb hGb hTb hSb hFd hGd hTd hSd hRe h1

theorem symp_ab :
    Fa * Tb * r0 ^ 2 + (Fa * Sb + Ga * Tb) * (w * σ0) + Ga * Sb * (w ^ 2 * (2 / r0 - α)) + Fa * (1 - U2 / R) +
      Tb * (1 - U2 / r0) - (Fb * Ta * r0 ^ 2 + (Fb * Sa + Gb * Ta) * (w * σ0) + Gb * Sa * (w ^ 2 * (2 / r0 - α))
      + Fb * (-w / R * U1 / r0) + Ta * ((r0 * U1 + σ0 * U2) / w)) = 0 := by
  subst hFa hGa hTa hSa hFb hGb hTb hSb hFd hGd hTd hSd
  simp only [vF, vG, vFt, vGt]
  linear_combination (norm := (field_simp; ring1)) (((-1) * U2 ^ 4 * r0 ^ 2 * α ^ 2 + 2 * U1 * U2 ^ 2 * r0 ^ 2 *
    α * σ0 + (-1) * U1 * U2 ^ 3 * r0 * α * σ0 + U1 ^ 2 * U2 * r0 ^ 3 * α + (-2) * U1 ^ 2 * U2 ^ 2 * r0 ^ 2 * α +
    (-1) * U2 ^ 4 * α * σ0 ^ 2 + (-1) * C * U1 * U2 * r0 * w * α + (-2) * C * U2 ^ 2 * w * α * σ0 + (-1) * R *
    U2 ^ 2 * r0 ^ 2 * α + (-1) * U1 ^ 2 * U2 ^ 2 * σ0 ^ 2 + (-1) * U1 ^ 3 * U2 * r0 * σ0 + U1 ^ 3 * r0 ^ 2 * σ0
    + (-1) * U1 ^ 4 * r0 ^ 2 + (-2) * U2 ^ 2 * r0 ^ 3 * α + 3 * U2 ^ 3 * r0 ^ 2 * α + 2 * U2 ^ 4 * r0 * α + (-1)
    * C * U1 ^ 2 * w * σ0 + (-1) * R * U1 * U2 * r0 * σ0 + R * U1 * U2 ^ 2 * σ0 + R * U1 ^ 2 * U2 * r0 + (-2) *
    U1 * U2 * r0 ^ 2 * σ0 + U1 * U2 ^ 2 * r0 * σ0 + 2 * U1 ^ 2 * U2 * r0 ^ 2 + 2 * U1 ^ 2 * U2 ^ 2 * r0 + (-1) *
    U1 ^ 2 * r0 ^ 3 + U2 ^ 3 * σ0 ^ 2 + (-1) * C * R * U1 * w + 2 * C * U1 * U2 * w + 2 * C * U2 * w * σ0 + R *
    U2 * r0 ^ 2 + (-1) * R * U2 ^ 2 * r0 + 2 * R * U2 ^ 3 + R ^ 2 * U2 * r0 + (-1) * R ^ 2 * U2 ^ 2 + 2 * U2 *
    r0 ^ 3 + (-2) * U2 ^ 2 * r0 ^ 2 + (-2) * U2 ^ 3 * r0) / (r0 ^ 4 * R ^ 3)) * hRe + (((-1) * U2 ^ 2 * r0 ^ 4 *
    α ^ 2 + U2 ^ 3 * r0 ^ 3 * α ^ 2 + (-1) * U1 * U2 ^ 2 * r0 ^ 2 * α * σ0 + U1 ^ 2 * U2 * r0 ^ 3 * α + (-1) *
    U1 ^ 2 * r0 ^ 4 * α + C * U1 * r0 ^ 2 * w * α + C * U2 * r0 * w * α * σ0 + (-1) * U1 ^ 3 * r0 ^ 2 * σ0 + 2 *
    U2 * r0 ^ 4 * α + (-2) * U2 ^ 3 * r0 ^ 2 * α + U1 * U2 * r0 ^ 2 * σ0 + (-2) * U1 ^ 2 * U2 * r0 ^ 2 + U1 ^ 2
    * r0 ^ 3 + (-2) * C * U1 * r0 * w + (-1) * C * r0 * w * σ0 + (-1) * U2 * r0 ^ 3 + 2 * U2 ^ 2 * r0 ^ 2 + (-1)
    * r0 ^ 4) / (r0 ^ 4 * R ^ 3)) * h1

theorem symp_ac :
    Fa * Tb * r0 ^ 2 + (Fa * Sb + Ga * Tb) * (w * σ0) + Ga * Sb * (w ^ 2 * (2 / r0 - α)) + Ga * (-w / R * U1 /
      r0) + Tb * (1 - U2 / r0) - (Fb * Ta * r0 ^ 2 + (Fb * Sa + Gb * Ta) * (w * σ0) + Gb * Sa * (w ^ 2 * (2 / r0
      - α)) + Fb * (-w / R * U1 / r0) + Sa * (1 - U2 / r0)) = 0 := by
  subst hFa hGa hTa hSa hFb hGb hTb hSb hFd hGd hTd hSd
  simp only [vF, vG, vFt, vGt]
  linear_combination (norm := (field_simp; ring1)) (((-1) * U2 ^ 3 * r0 ^ 3 * α ^ 2 + U1 * U2 ^ 2 * r0 ^ 2 * α *
    σ0 + (-1) * U1 * U2 ^ 3 * r0 * α * σ0 + (-1) * U1 ^ 2 * U2 * r0 ^ 3 * α + (-1) * U2 ^ 4 * α * σ0 ^ 2 + (-1)
    * C * U2 ^ 2 * w * α * σ0 + (-1) * R * U2 ^ 3 * r0 * α + (-1) * U1 ^ 2 * U2 ^ 2 * σ0 ^ 2 + (-1) * U1 ^ 3 *
    U2 * r0 * σ0 + U1 ^ 3 * r0 ^ 2 * σ0 + U2 ^ 2 * r0 ^ 3 * α + 2 * U2 ^ 4 * r0 * α + (-1) * C * U1 ^ 2 * w * σ0
    + (-1) * R * U1 * U2 * r0 * σ0 + (-1) * R * U1 ^ 2 * U2 * r0 + (-1) * R * U1 ^ 2 * r0 ^ 2 + (-1) * U1 * U2 *
    r0 ^ 2 * σ0 + U1 * U2 ^ 2 * r0 * σ0 + 2 * U1 ^ 2 * U2 ^ 2 * r0 + U2 ^ 3 * σ0 ^ 2 + C * U1 * U2 * w + C * U2
    * w * σ0 + R * U2 ^ 2 * r0 + R * U2 ^ 3 + (-2) * U2 ^ 3 * r0) / (r0 ^ 4 * R ^ 3)) * hRe + ((U2 ^ 2 * r0 ^ 3
    * α + (-1) * U2 ^ 3 * r0 ^ 2 * α + (-1) * U1 ^ 2 * U2 * r0 ^ 2 + U1 ^ 2 * r0 ^ 3 + (-1) * C * U1 * r0 * w +
    (-1) * U2 * r0 ^ 3 + U2 ^ 2 * r0 ^ 2) / (r0 ^ 4 * R ^ 3)) * h1

theorem symp_ad :
    Fa * Td * r0 ^ 2 + (Fa * Sd + Ga * Td) * (w * σ0) + Ga * Sd * (w ^ 2 * (2 / r0 - α)) + Ga * (1 - U2 / R) +
      Td * (1 - U2 / r0) - (Fd * Ta * r0 ^ 2 + (Fd * Sa + Gd * Ta) * (w * σ0) + Gd * Sa * (w ^ 2 * (2 / r0 - α))
      + Fd * (-w / R * U1 / r0) + Sa * ((r0 * U1 + σ0 * U2) / w)) = 0 := by
  subst hFa hGa hTa hSa hFb hGb hTb hSb hFd hGd hTd hSd
  simp only [vF, vG, vFt, vGt]
  linear_combination (norm := (field_simp; ring1)) ((C * U2 ^ 2 * r0 ^ 2 * w * α ^ 2 + U1 * U2 ^ 3 * r0 * α * σ0
    ^ 2 + U1 ^ 2 * U2 ^ 2 * r0 ^ 2 * α * σ0 + C * U1 ^ 2 * r0 ^ 2 * w * α + (-1) * R * U2 ^ 3 * r0 * α * σ0 +
    (-2) * U1 * U2 ^ 3 * r0 ^ 2 * α + U1 ^ 3 * U2 * r0 * σ0 ^ 2 + U1 ^ 4 * r0 ^ 2 * σ0 + (-1) * C * R * U2 * r0
    * w * α + (-1) * C * U2 * r0 ^ 2 * w * α + (-1) * R * U1 ^ 2 * U2 * r0 * σ0 + (-1) * U1 * U2 ^ 2 * r0 * σ0 ^
    2 + (-1) * U1 ^ 2 * U2 * r0 ^ 2 * σ0 + (-2) * U1 ^ 3 * U2 * r0 ^ 2 + C * R * U1 * w * σ0 + (-1) * C * U1 ^ 2
    * r0 * w + (-1) * R * U1 * U2 ^ 2 * r0 + R * U2 ^ 2 * r0 * σ0 + R ^ 2 * U1 * U2 * r0 + R ^ 2 * U1 * r0 ^ 2 +
    R ^ 2 * U2 ^ 2 * σ0 + 2 * U1 * U2 ^ 2 * r0 ^ 2 + C * R * r0 * w) / (r0 ^ 3 * R ^ 3 * w ^ 1)) * hRe + ((U1 *
    U2 ^ 2 * r0 ^ 3 * α + (-1) * C * U2 * r0 ^ 2 * w * α + U1 ^ 3 * r0 ^ 3 + (-1) * U1 * U2 * r0 ^ 3 + C * r0 ^
    2 * w) / (r0 ^ 3 * R ^ 3 * w ^ 1)) * h1

theorem symp_bc :
    Fb * Tb * r0 ^ 2 + (Fb * Sb + Gb * Tb) * (w * σ0) + Gb * Sb * (w ^ 2 * (2 / r0 - α)) + Gb * (-w / R * U1 /
      r0) + Tb * ((r0 * U1 + σ0 * U2) / w) - (Fb * Tb * r0 ^ 2 + (Fb * Sb + Gb * Tb) * (w * σ0) + Gb * Sb * (w ^
      2 * (2 / r0 - α)) + Fb * (1 - U2 / R) + Sb * (1 - U2 / r0)) = 0 := by
  subst hFa hGa hTa hSa hFb hGb hTb hSb hFd hGd hTd hSd
  simp only [vF, vG, vFt, vGt]
  linear_combination (norm := (field_simp; ring1)) (((-1) * U2 ^ 3 * α * σ0 + U1 ^ 3 * r0 + (-2) * R * U1 * U2 +
    (-2) * U1 * U2 * r0 + U1 * U2 ^ 2 + U2 ^ 2 * σ0) / (r0 ^ 1 * R ^ 3 * w ^ 1)) * hRe + ((U2 ^ 2 * r0 * α * σ0
    + U1 ^ 2 * r0 * σ0 + U1 * r0 ^ 2 + (-1) * U2 * r0 * σ0) / (r0 ^ 1 * R ^ 3 * w ^ 1)) * h1

theorem symp_bd :
    Fb * Td * r0 ^ 2 + (Fb * Sd + Gb * Td) * (w * σ0) + Gb * Sd * (w ^ 2 * (2 / r0 - α)) + Gb * (1 - U2 / R) +
      Td * ((r0 * U1 + σ0 * U2) / w) - (Fd * Tb * r0 ^ 2 + (Fd * Sb + Gd * Tb) * (w * σ0) + Gd * Sb * (w ^ 2 *
      (2 / r0 - α)) + Fd * (1 - U2 / R) + Sb * ((r0 * U1 + σ0 * U2) / w)) = 0 := by
  subst hFa hGa hTa hSa hFb hGb hTb hSb hFd hGd hTd hSd
  simp only [vF, vG, vFt, vGt]
  linear_combination (norm := (field_simp; ring1)) ((U2 ^ 4 * r0 ^ 2 * α ^ 2 + U1 * U2 ^ 3 * r0 * α * σ0 + 2 *
    U1 ^ 2 * U2 ^ 2 * r0 ^ 2 * α + U2 ^ 4 * α * σ0 ^ 2 + C * U1 * U2 * r0 * w * α + 2 * C * U2 ^ 2 * w * α * σ0
    + U1 ^ 2 * U2 ^ 2 * σ0 ^ 2 + U1 ^ 3 * U2 * r0 * σ0 + U1 ^ 4 * r0 ^ 2 + (-3) * U2 ^ 3 * r0 ^ 2 * α + (-2) *
    U2 ^ 4 * r0 * α + C * U1 ^ 2 * w * σ0 + (-1) * R * U1 * U2 ^ 2 * σ0 + (-1) * R * U1 ^ 2 * U2 * r0 + (-1) *
    U1 * U2 ^ 2 * r0 * σ0 + (-3) * U1 ^ 2 * U2 * r0 ^ 2 + (-2) * U1 ^ 2 * U2 ^ 2 * r0 + (-1) * U2 ^ 3 * σ0 ^ 2 +
    C * R * U1 * w + (-2) * C * U1 * U2 * w + (-2) * C * U2 * w * σ0 + R * U2 ^ 2 * r0 + (-2) * R * U2 ^ 3 + R ^
    2 * U2 * r0 + R ^ 2 * U2 ^ 2 + 2 * U2 ^ 2 * r0 ^ 2 + 2 * U2 ^ 3 * r0) / (r0 ^ 1 * R ^ 3 * w ^ 2)) * hRe +
    (((-1) * U2 ^ 3 * r0 ^ 3 * α ^ 2 + U1 * U2 ^ 2 * r0 ^ 2 * α * σ0 + (-1) * U1 ^ 2 * U2 * r0 ^ 3 * α + (-1) *
    C * U1 * r0 ^ 2 * w * α + (-1) * C * U2 * r0 * w * α * σ0 + U1 ^ 3 * r0 ^ 2 * σ0 + 2 * U2 ^ 2 * r0 ^ 3 * α +
    2 * U2 ^ 3 * r0 ^ 2 * α + (-1) * U1 * U2 * r0 ^ 2 * σ0 + 2 * U1 ^ 2 * U2 * r0 ^ 2 + U1 ^ 2 * r0 ^ 3 + 2 * C
    * U1 * r0 * w + C * r0 * w * σ0 + (-1) * U2 * r0 ^ 3 + (-2) * U2 ^ 2 * r0 ^ 2) / (r0 ^ 1 * R ^ 3 * w ^ 2)) *
    h1

theorem symp_cd :
    Fb * Td * r0 ^ 2 + (Fb * Sd + Gb * Td) * (w * σ0) + Gb * Sd * (w ^ 2 * (2 / r0 - α)) + Gb * (1 - U2 / R) +
      Sd * (1 - U2 / r0) - (Fd * Tb * r0 ^ 2 + (Fd * Sb + Gd * Tb) * (w * σ0) + Gd * Sb * (w ^ 2 * (2 / r0 - α))
      + Gd * (-w / R * U1 / r0) + Sb * ((r0 * U1 + σ0 * U2) / w)) = 0 := by
  subst hFa hGa hTa hSa hFb hGb hTb hSb hFd hGd hTd hSd
  simp only [vF, vG, vFt, vGt]
  linear_combination (norm := (field_simp; ring1)) ((U1 * U2 ^ 3 * r0 * α * σ0 + U2 ^ 4 * α * σ0 ^ 2 + C * U2 ^
    2 * w * α * σ0 + R * U2 ^ 3 * r0 * α + U1 ^ 2 * U2 ^ 2 * σ0 ^ 2 + U1 ^ 3 * U2 * r0 * σ0 + (-2) * U2 ^ 4 * r0
    * α + C * U1 ^ 2 * w * σ0 + R * U1 ^ 2 * U2 * r0 + (-1) * U1 * U2 ^ 2 * r0 * σ0 + (-2) * U1 ^ 2 * U2 ^ 2 *
    r0 + (-1) * U2 ^ 3 * σ0 ^ 2 + (-1) * C * U1 * U2 * w + (-1) * C * U2 * w * σ0 + (-1) * R * U2 ^ 2 * r0 +
    (-1) * R * U2 ^ 3 + R ^ 2 * U2 * r0 + 2 * U2 ^ 3 * r0) / (r0 ^ 1 * R ^ 3 * w ^ 2)) * hRe + ((U2 ^ 3 * r0 ^ 2
    * α + U1 ^ 2 * U2 * r0 ^ 2 + C * U1 * r0 * w + (-1) * U2 ^ 2 * r0 ^ 2) / (r0 ^ 1 * R ^ 3 * w ^ 2)) * h1

end

end Adx
