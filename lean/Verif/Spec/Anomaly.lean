import Verif.Vec

/-! # Specification of the classical anomalies (independent of the model)

Textbook definitions of the eccentric and hyperbolic anomaly of a state on a conic with semimajor axis
`a` (negative on hyperbolas) and eccentricity `e`. -/

namespace Adx.Spec

/-- `E` is the eccentric anomaly: `|r| = a (1 - e cos E)` and `r·v = √(mu a) e sin E`. -/
def IsEccentric (mu a e : ℝ) (r v : V3 ℝ) (E : ℝ) : Prop :=
  Real.sqrt (r.x ^ 2 + r.y ^ 2 + r.z ^ 2) = a * (1 - e * Real.cos E) ∧
    r.x * v.x + r.y * v.y + r.z * v.z = Real.sqrt (mu * a) * (e * Real.sin E)

/-- `H` is the hyperbolic anomaly: `|r| = a (1 - e cosh H)` and `r·v = √(-mu a) e sinh H`. -/
def IsHyperbolic (mu a e : ℝ) (r v : V3 ℝ) (H : ℝ) : Prop :=
  Real.sqrt (r.x ^ 2 + r.y ^ 2 + r.z ^ 2) = a * (1 - e * Real.cosh H) ∧
    r.x * v.x + r.y * v.y + r.z * v.z = Real.sqrt (-(mu * a)) * (e * Real.sinh H)

/-- `f` is the true anomaly at eccentric anomaly `E`: `cos f = (cos E - e)/(1 - e cos E)`,
`sin f = √(1 - e²) sin E/(1 - e cos E)`. -/
def TrueOfEccentric (e E f : ℝ) : Prop :=
  Real.cos f * (1 - e * Real.cos E) = Real.cos E - e ∧
    Real.sin f * (1 - e * Real.cos E) = Real.sqrt (1 - e ^ 2) * Real.sin E

/-- `f` is the true anomaly at hyperbolic anomaly `H`: `cos f = (e - cosh H)/(e cosh H - 1)`,
`sin f = √(e² - 1) sinh H/(e cosh H - 1)`. -/
def TrueOfHyperbolic (e H f : ℝ) : Prop :=
  Real.cos f * (e * Real.cosh H - 1) = e - Real.cosh H ∧
    Real.sin f * (e * Real.cosh H - 1) = Real.sqrt (e ^ 2 - 1) * Real.sinh H

/-- `f` is the true anomaly at parabolic anomaly `D = √p tan (f/2)`: `cos f = (p - D²)/(p + D²)`,
`sin f = 2 √p D/(p + D²)`. -/
def TrueOfParabolic (p D f : ℝ) : Prop :=
  Real.cos f * (p + D ^ 2) = p - D ^ 2 ∧ Real.sin f * (p + D ^ 2) = 2 * Real.sqrt p * D

end Adx.Spec
