import Verif.Props.C88
import Verif.Props.C40
import Verif.Props.C42
import Mathlib.Analysis.SpecialFunctions.Integrals.Basic
import Mathlib.Analysis.SpecialFunctions.Trigonometric.ArctanDeriv
import Mathlib.MeasureTheory.Integral.IntervalIntegral.Periodic

/-! # C90: the effect of the oblateness over one revolution

The rates of C88 under the J2 term, integrated over one period of the Kepler orbit: the first-order secular changes of the elements. -/

namespace Adx
open V3 Spec

/-! ## Averages over the orbit -/

theorem beta_exists {e : ℝ} (h0 : 0 ≤ e) (h1 : e < 1) :
    ∃ β, 0 ≤ β ∧ β < 1 ∧ e * (1 + β ^ 2) = 2 * β ∧ Real.sqrt (1 - e ^ 2) * (1 + β ^ 2) = 1 - β ^ 2 := by
  have hq : 0 < 1 - e ^ 2 := by nlinarith
  have hs := Real.sq_sqrt hq.le
  have hsp := Real.sqrt_pos.2 hq
  set q := Real.sqrt (1 - e ^ 2)
  have h1q : 0 < 1 + q := by linarith
  refine ⟨e / (1 + q), by positivity, by rw [div_lt_one h1q]; linarith, ?_, ?_⟩
  · field_simp
    linear_combination e * hs
  · field_simp
    linear_combination (q + 1) * hs

/-- The true anomaly as a continuous function of the eccentric anomaly. -/
noncomputable def trueOf (β E : ℝ) : ℝ := E + 2 * Real.arctan (β * Real.sin E / (1 - β * Real.cos E))

section
variable {β e : ℝ} (h0 : 0 ≤ β) (h1 : β < 1) (he : e * (1 + β ^ 2) = 2 * β) (hq : Real.sqrt (1 - e ^ 2) * (1 + β ^ 2) = 1 - β ^ 2)
include h0 h1

theorem trueOf_denom (E : ℝ) : 0 < 1 - β * Real.cos E := by nlinarith [Real.cos_le_one E]

omit h0 h1 in
theorem trueOf_add (E : ℝ) : trueOf β (E + 2 * Real.pi) = trueOf β E + 2 * Real.pi := by
  simp only [trueOf, Real.sin_add_two_pi, Real.cos_add_two_pi]; ring

include he hq

theorem trueOf_spec (E : ℝ) : TrueOfEccentric e E (trueOf β E) := by
  have hD := trueOf_denom h0 h1 E
  have h2 := Real.sin_sq_add_cos_sq E
  set u := β * Real.sin E / (1 - β * Real.cos E) with hu
  have huD : u * (1 - β * Real.cos E) = β * Real.sin E := by rw [hu]; field_simp
  have hc := Real.cos_sq_arctan u
  have hpos : 0 < 1 + u ^ 2 := by positivity
  have hcos : Real.cos (2 * Real.arctan u) * (1 + u ^ 2) = 1 - u ^ 2 := by
    rw [Real.cos_two_mul, hc]; field_simp; ring
  have hsin : Real.sin (2 * Real.arctan u) * (1 + u ^ 2) = 2 * u := by
    have ht := Real.tan_arctan u
    have hcp := Real.cos_arctan_pos u
    rw [Real.tan_eq_sin_div_cos, div_eq_iff hcp.ne'] at ht
    rw [Real.sin_two_mul, ht]
    have : 2 * (u * Real.cos (Real.arctan u)) * Real.cos (Real.arctan u) = 2 * u * Real.cos (Real.arctan u) ^ 2 := by ring
    rw [this, hc]; field_simp
  set D := 1 - β * Real.cos E with hDdef
  have hden : (1 + u ^ 2) * D ^ 2 = 1 - 2 * β * Real.cos E + β ^ 2 := by
    have : (1 + u ^ 2) * D ^ 2 = D ^ 2 + (u * D) ^ 2 := by ring
    rw [this, huD, hDdef]; linear_combination β ^ 2 * h2
  have hx : (1 - u ^ 2) * D ^ 2 = D ^ 2 - β ^ 2 * Real.sin E ^ 2 := by
    have : (1 - u ^ 2) * D ^ 2 = D ^ 2 - (u * D) ^ 2 := by ring
    rw [this, huD]; ring
  have hy : 2 * u * D ^ 2 = 2 * β * Real.sin E * D := by
    have : 2 * u * D ^ 2 = 2 * (u * D) * D := by ring
    rw [this, huD]; ring
  have hb : 0 < 1 + β ^ 2 := by positivity
  have hK : (1 - e * Real.cos E) * (1 + β ^ 2) = (1 + u ^ 2) * D ^ 2 := by rw [hden]; linear_combination -Real.cos E * he
  have C1 : Real.cos (2 * Real.arctan u) * ((1 + u ^ 2) * D ^ 2) = D ^ 2 - β ^ 2 * Real.sin E ^ 2 := by
    rw [← hx, ← hcos]; ring
  have S1 : Real.sin (2 * Real.arctan u) * ((1 + u ^ 2) * D ^ 2) = 2 * β * Real.sin E * D := by
    rw [← hy, ← hsin]; ring
  have hf : trueOf β E = E + 2 * Real.arctan u := rfl
  constructor
  · refine mul_right_cancel₀ hb.ne' ?_
    rw [mul_assoc, hK, hf, Real.cos_add, sub_mul, mul_assoc, C1, mul_assoc, S1, hDdef]
    linear_combination (-β ^ 2 * Real.cos E - 2 * β * (1 - β * Real.cos E)) * h2 + he
  · refine mul_right_cancel₀ hb.ne' ?_
    rw [mul_assoc, hK, hf, Real.sin_add, add_mul, mul_assoc, C1, mul_assoc, S1, hDdef]
    linear_combination (-β ^ 2 * Real.sin E) * h2 - Real.sin E * hq

theorem trueOf_deriv (E : ℝ) : HasDerivAt (trueOf β) (Real.sqrt (1 - e ^ 2) / (1 - e * Real.cos E)) E := by
  have hD := trueOf_denom h0 h1 E
  have h2 := Real.sin_sq_add_cos_sq E
  have hd : HasDerivAt (trueOf β) _ E := (hasDerivAt_id E).add
    (((((Real.hasDerivAt_sin E).const_mul β).div (((Real.hasDerivAt_cos E).const_mul β).const_sub 1) hD.ne').arctan).const_mul 2)
  refine hd.congr_deriv ?_
  have hb : 0 < 1 + β ^ 2 := by positivity
  have hN : 0 < 1 - 2 * β * Real.cos E + β ^ 2 := by nlinarith [Real.sin_sq_add_cos_sq E, sq_nonneg (β * Real.sin E), sq_nonneg (1 - β * Real.cos E)]
  have e1 : e = 2 * β / (1 + β ^ 2) := by rw [eq_div_iff hb.ne']; exact he
  have e2 : Real.sqrt (1 - e ^ 2) = (1 - β ^ 2) / (1 + β ^ 2) := by rw [eq_div_iff hb.ne']; exact hq
  have hden : 1 + (β * Real.sin E / (1 - β * Real.cos E)) ^ 2 = (1 - 2 * β * Real.cos E + β ^ 2) / (1 - β * Real.cos E) ^ 2 := by
    field_simp; linear_combination β ^ 2 * h2
  have hden2 : 1 - e * Real.cos E = (1 - 2 * β * Real.cos E + β ^ 2) / (1 + β ^ 2) := by rw [e1]; field_simp; ring
  simp only [Pi.div_apply]
  rw [e2, hden, hden2]
  field_simp
  linear_combination (-2 * β ^ 2) * h2

end

section
variable {p e mu : ℝ} (hp : 0 < p) (h0 : 0 ≤ e) (h1 : e < 1) (hmu : 0 < mu) (i Ω ω f0 : ℝ)
include hp h0 h1 hmu

/-- After one period the state is back. -/
theorem period_closes :
    exactProp (coe2rv p e i Ω ω f0 mu).1 (coe2rv p e i Ω ω f0 mu).2 mu (orb_period (p / (1 - e ^ 2)) mu) = coe2rv p e i Ω ω f0 mu := by
  obtain ⟨E0, hE0⟩ := (C87_total_elps h0 h1).1 f0
  have hE1 : TrueOfEccentric e (E0 + 2 * Real.pi) f0 := by
    simpa only [TrueOfEccentric, Real.cos_add_two_pi, Real.sin_add_two_pi] using hE0
  have h := C87_elliptic hp h0 hmu i Ω ω h1 hE0 hE1 0
  have hq : 0 < 1 - e ^ 2 := by nlinarith
  have hT : 0 < orb_period (p / (1 - e ^ 2)) mu := by
    simp only [orb_period, sqrt_real, pi_real, Nat.cast_ofNat]
    have := Real.pi_pos
    have := div_pos hp hq
    positivity
  have e1 : 0 + kepler_equ_elps (E0 + 2 * Real.pi) e (E0 - e * Real.sin E0 + mean_anomaly_elps (p / (1 - e ^ 2)) 0 mu) /
      mean_motion (orb_period (p / (1 - e ^ 2)) mu) = orb_period (p / (1 - e ^ 2)) mu := by
    simp only [kepler_equ_elps, mean_anomaly_elps, mean_motion, sin_real, pi_real, Real.sin_add_two_pi, mul_zero, Nat.cast_ofNat]
    have := Real.pi_pos
    field_simp
    ring
  rwa [e1] at h

/-- C90: an integral over one period in time is an integral over the true anomaly, here counted from the node, with the weight `r²/h`. -/
theorem C90_average (g : V3 ℝ → V3 ℝ → ℝ)
    (hc1 : Continuous fun t => g (exactProp (coe2rv p e i Ω ω f0 mu).1 (coe2rv p e i Ω ω f0 mu).2 mu t).1
      (exactProp (coe2rv p e i Ω ω f0 mu).1 (coe2rv p e i Ω ω f0 mu).2 mu t).2)
    (hc2 : Continuous fun f => g (coe2rv p e i Ω ω f mu).1 (coe2rv p e i Ω ω f mu).2) :
    ∫ t in (0 : ℝ)..orb_period (p / (1 - e ^ 2)) mu, g (exactProp (coe2rv p e i Ω ω f0 mu).1 (coe2rv p e i Ω ω f0 mu).2 mu t).1
      (exactProp (coe2rv p e i Ω ω f0 mu).1 (coe2rv p e i Ω ω f0 mu).2 mu t).2
    = ∫ θ in (0 : ℝ)..2 * Real.pi, g (coe2rv p e i Ω ω (θ - ω) mu).1 (coe2rv p e i Ω ω (θ - ω) mu).2 *
      ((p / (1 + e * Real.cos (θ - ω))) ^ 2 / Real.sqrt (mu * p)) := by
  obtain ⟨E0, hE0⟩ := (C87_total_elps h0 h1).1 f0
  obtain ⟨β, b0, b1, be, bq⟩ := beta_exists h0 h1
  have hq : 0 < 1 - e ^ 2 := by nlinarith
  have hqs := Real.sqrt_pos.2 hq
  have ha := div_pos hp hq
  have hT : 0 < orb_period (p / (1 - e ^ 2)) mu := by
    simp only [orb_period, sqrt_real, pi_real, Nat.cast_ofNat]
    have := Real.pi_pos
    positivity
  have hcE : ∀ E, 0 < 1 - e * Real.cos E := fun E => by nlinarith [Real.cos_le_one E]
  have hcf : ∀ f, 0 < 1 + e * Real.cos f := fun f => by nlinarith [Real.neg_one_le_cos f]
  set T := orb_period (p / (1 - e ^ 2)) mu with hTdef
  set G := fun t => g (exactProp (coe2rv p e i Ω ω f0 mu).1 (coe2rv p e i Ω ω f0 mu).2 mu t).1
      (exactProp (coe2rv p e i Ω ω f0 mu).1 (coe2rv p e i Ω ω f0 mu).2 mu t).2 with hG
  set K := fun f => g (coe2rv p e i Ω ω f mu).1 (coe2rv p e i Ω ω f mu).2 * ((p / (1 + e * Real.cos f)) ^ 2 / Real.sqrt (mu * p)) with hK
  set τ := fun E => (E - e * Real.sin E - (E0 - e * Real.sin E0)) * (T / (2 * Real.pi)) with hτ
  have hτd : ∀ E, HasDerivAt τ ((1 - e * Real.cos E) * (T / (2 * Real.pi))) E := fun E =>
    (((hasDerivAt_id E).sub ((Real.hasDerivAt_sin E).const_mul e)).sub_const _).mul_const _
  have hτ0 : τ E0 = 0 := by simp [hτ]
  have hτ1 : τ (E0 + 2 * Real.pi) = T := by
    have := Real.pi_pos
    simp only [hτ, Real.sin_add_two_pi]; field_simp; ring
  have hstate : ∀ E, exactProp (coe2rv p e i Ω ω f0 mu).1 (coe2rv p e i Ω ω f0 mu).2 mu (τ E) = coe2rv p e i Ω ω (trueOf β E) mu := by
    intro E
    have h := C87_elliptic hp h0 hmu i Ω ω h1 hE0 (trueOf_spec b0 b1 be bq E) 0
    have e1 : 0 + kepler_equ_elps E e (E0 - e * Real.sin E0 + mean_anomaly_elps (p / (1 - e ^ 2)) 0 mu) / mean_motion T = τ E := by
      have := Real.pi_pos
      simp only [hτ, kepler_equ_elps, mean_anomaly_elps, mean_motion, sin_real, pi_real, mul_zero, Nat.cast_ofNat]
      field_simp
      ring
    rwa [e1] at h
  have hKc : Continuous K := hc2.mul (((continuous_const.div (by fun_prop) fun f => (hcf f).ne').pow 2).div_const _)
  have hper : Function.Periodic K (2 * Real.pi) := by
    intro f
    have : coe2rv p e i Ω ω (f + 2 * Real.pi) mu = coe2rv p e i Ω ω f mu := by
      simp only [coe2rv, perifocalPos, perifocalVel, sin_real, cos_real, Real.sin_add_two_pi, Real.cos_add_two_pi]
    simp only [hK, this, Real.cos_add_two_pi]
  have step1 : ∫ t in (0 : ℝ)..T, G t = ∫ E in E0..E0 + 2 * Real.pi, (G ∘ τ) E * ((1 - e * Real.cos E) * (T / (2 * Real.pi))) := by
    rw [intervalIntegral.integral_comp_mul_deriv (fun E _ => hτd E) (by fun_prop) hc1, hτ0, hτ1]
  have step2 : ∫ E in E0..E0 + 2 * Real.pi, (K ∘ trueOf β) E * (Real.sqrt (1 - e ^ 2) / (1 - e * Real.cos E))
      = ∫ f in trueOf β E0..trueOf β E0 + 2 * Real.pi, K f := by
    rw [intervalIntegral.integral_comp_mul_deriv (fun E _ => trueOf_deriv b0 b1 be bq E) ?_ hKc, trueOf_add]
    exact (continuous_const.div (by fun_prop) fun E => (hcE E).ne').continuousOn
  have step3 : ∫ f in trueOf β E0..trueOf β E0 + 2 * Real.pi, K f = ∫ θ in (0 : ℝ)..2 * Real.pi, K (θ - ω) := by
    rw [intervalIntegral.integral_comp_sub_right K ω, hper.intervalIntegral_add_eq (trueOf β E0) (0 - ω)]
    congr 1; ring
  change ∫ t in (0 : ℝ)..T, G t = ∫ θ in (0 : ℝ)..2 * Real.pi, K (θ - ω)
  rw [step1, ← step3, ← step2]
  refine intervalIntegral.integral_congr fun E _ => ?_
  have hf := trueOf_spec b0 b1 be bq E
  simp only [Function.comp, hG, hK, hstate]
  rw [mul_assoc]
  congr 1
  -- the weights
  have hr : 1 + e * Real.cos (trueOf β E) = (1 - e ^ 2) / (1 - e * Real.cos E) := by
    rw [eq_div_iff (hcE E).ne']; linear_combination e * hf.1
  have hTv : T / (2 * Real.pi) = Real.sqrt ((p / (1 - e ^ 2)) ^ 3 / mu) := by
    have := Real.pi_pos
    rw [hTdef]
    simp only [orb_period, sqrt_real, pi_real, Nat.cast_ofNat]
    field_simp
  have hw : Real.sqrt ((p / (1 - e ^ 2)) ^ 3 / mu) = (p / (1 - e ^ 2)) ^ 2 * Real.sqrt (1 - e ^ 2) / Real.sqrt (mu * p) := by
    rw [Real.sqrt_eq_iff_mul_self_eq (by positivity) (by positivity)]
    rw [div_mul_div_comm, Real.mul_self_sqrt (by positivity)]
    have : (p / (1 - e ^ 2)) ^ 2 * Real.sqrt (1 - e ^ 2) * ((p / (1 - e ^ 2)) ^ 2 * Real.sqrt (1 - e ^ 2))
      = (p / (1 - e ^ 2)) ^ 4 * (Real.sqrt (1 - e ^ 2) * Real.sqrt (1 - e ^ 2)) := by ring
    rw [this, Real.mul_self_sqrt hq.le]
    field_simp
  rw [hr, hTv, hw]
  have := hcE E
  have := Real.sqrt_pos.2 (mul_pos hmu hp)
  field_simp

end

/-! ## Moments of cosine and sine -/

/-- The integral of `cos^a sin^b` over a turn. -/
noncomputable def trigMoment (a b : ℕ) : ℝ := ∫ θ in (0 : ℝ)..2 * Real.pi, Real.cos θ ^ a * Real.sin θ ^ b

theorem turn_zero {A g : ℝ → ℝ} (h : ∀ θ, HasDerivAt A (g θ) θ) (hg : Continuous g) (hA : A (2 * Real.pi) = A 0) :
    ∫ θ in (0 : ℝ)..2 * Real.pi, g θ = 0 := by
  rw [intervalIntegral.integral_eq_sub_of_hasDerivAt (fun θ _ => h θ) (hg.intervalIntegrable _ _), hA, sub_self]

theorem trigMoment_relations (a b : ℕ) :
    trigMoment (a + 2) b = (a + 1) / (a + b + 2) * trigMoment a b ∧ trigMoment a (b + 2) = (b + 1) / (a + b + 2) * trigMoment a b := by
  have h1 : trigMoment (a + 2) b + trigMoment a (b + 2) = trigMoment a b := by
    simp only [trigMoment]
    rw [← intervalIntegral.integral_add (Continuous.intervalIntegrable (by fun_prop) _ _) (Continuous.intervalIntegrable (by fun_prop) _ _)]
    refine intervalIntegral.integral_congr fun θ _ => ?_
    have := Real.sin_sq_add_cos_sq θ
    linear_combination Real.cos θ ^ a * Real.sin θ ^ b * this
  have h2 : (b + 1) * trigMoment (a + 2) b - (a + 1) * trigMoment a (b + 2) = 0 := by
    simp only [trigMoment]
    rw [← intervalIntegral.integral_const_mul, ← intervalIntegral.integral_const_mul,
      ← intervalIntegral.integral_sub (Continuous.intervalIntegrable (by fun_prop) _ _) (Continuous.intervalIntegrable (by fun_prop) _ _)]
    refine turn_zero (A := fun θ => Real.cos θ ^ (a + 1) * Real.sin θ ^ (b + 1)) (fun θ => ?_) (by fun_prop) (by simp)
    refine (((Real.hasDerivAt_cos θ).pow (a + 1)).mul ((Real.hasDerivAt_sin θ).pow (b + 1))).congr_deriv ?_
    simp only [Nat.cast_add, Nat.cast_one, Nat.add_sub_cancel, Pi.pow_apply]
    ring
  have hpos : (0 : ℝ) < a + b + 2 := by positivity
  constructor <;> rw [div_mul_eq_mul_div, eq_div_iff hpos.ne']
  · linear_combination (a + 1) * h1 + h2
  · linear_combination (b + 1) * h1 - h2

theorem trigMoment_cos (a b : ℕ) : trigMoment (a + 2) b = (a + 1) / (a + b + 2) * trigMoment a b := (trigMoment_relations a b).1
theorem trigMoment_sin (a b : ℕ) : trigMoment a (b + 2) = (b + 1) / (a + b + 2) * trigMoment a b := (trigMoment_relations a b).2

theorem trigMoment_zero : trigMoment 0 0 = 2 * Real.pi := by simp [trigMoment]

theorem trigMoment_one_left (b : ℕ) : trigMoment 1 b = 0 := by
  refine turn_zero (A := fun θ => Real.sin θ ^ (b + 1) / (b + 1)) (fun θ => ?_) (by fun_prop) (by simp)
  refine (((Real.hasDerivAt_sin θ).pow (b + 1)).div_const _).congr_deriv ?_
  simp only [Nat.cast_add, Nat.cast_one, Nat.add_sub_cancel]
  field_simp

theorem trigMoment_one_right (a : ℕ) : trigMoment a 1 = 0 := by
  refine turn_zero (A := fun θ => -Real.cos θ ^ (a + 1) / (a + 1)) (fun θ => ?_) (by fun_prop) (by simp)
  refine (((Real.hasDerivAt_cos θ).pow (a + 1)).neg.div_const _).congr_deriv ?_
  simp only [Nat.cast_add, Nat.cast_one, Nat.add_sub_cancel]
  field_simp

theorem trigMoment_poly (n : ℕ) (K : ℕ → ℕ → ℝ) :
    ∫ θ in (0 : ℝ)..2 * Real.pi, ∑ a ∈ Finset.range n, ∑ b ∈ Finset.range n, K a b * (Real.cos θ ^ a * Real.sin θ ^ b)
      = ∑ a ∈ Finset.range n, ∑ b ∈ Finset.range n, K a b * trigMoment a b := by
  rw [intervalIntegral.integral_finsetSum fun a _ => Continuous.intervalIntegrable (by fun_prop) _ _]
  refine Finset.sum_congr rfl fun a _ => ?_
  rw [intervalIntegral.integral_finsetSum fun b _ => Continuous.intervalIntegrable (by fun_prop) _ _]
  refine Finset.sum_congr rfl fun b _ => ?_
  rw [intervalIntegral.integral_const_mul]; rfl

/-- Reading off a mean from the coefficients. -/
theorem turn_poly {g : ℝ → ℝ} {m : ℝ} (n : ℕ) (K : ℕ → ℕ → ℝ)
    (hg : ∀ θ, g θ = ∑ a ∈ Finset.range n, ∑ b ∈ Finset.range n, K a b * (Real.cos θ ^ a * Real.sin θ ^ b))
    (hm : ∑ a ∈ Finset.range n, ∑ b ∈ Finset.range n, K a b * trigMoment a b = m) : ∫ θ in (0 : ℝ)..2 * Real.pi, g θ = m := by
  rw [← hm, ← trigMoment_poly]; exact intervalIntegral.integral_congr fun θ _ => hg θ

theorem turn_T1 (k l : ℝ) : ∫ θ in (0 : ℝ)..2 * Real.pi, ((1 + k * Real.cos θ + l * Real.sin θ) * Real.sin θ * Real.cos θ) = 0 := by
  refine turn_poly 4 (fun a b => match a, b with
    | 1, 1 => (1)
    | 1, 2 => (1) * l
    | 2, 1 => (1) * k
    | _, _ => 0) (fun θ => ?_) ?_
  · simp only [Finset.sum_range_succ, Finset.sum_range_zero, zero_mul, zero_add, add_zero]
    ring
  · simp only [Finset.sum_range_succ, Finset.sum_range_zero, zero_mul, zero_add, add_zero, trigMoment_cos, trigMoment_sin, trigMoment_one_left,
      trigMoment_one_right, trigMoment_zero]
    push_cast
    ring

theorem turn_T2 (k l : ℝ) : ∫ θ in (0 : ℝ)..2 * Real.pi, ((1 + k * Real.cos θ + l * Real.sin θ) * Real.sin θ ^ 2) = Real.pi := by
  refine turn_poly 4 (fun a b => match a, b with
    | 0, 2 => (1)
    | 0, 3 => (1) * l
    | 1, 2 => (1) * k
    | _, _ => 0) (fun θ => ?_) ?_
  · simp only [Finset.sum_range_succ, Finset.sum_range_zero, zero_mul, zero_add, add_zero]
    ring
  · simp only [Finset.sum_range_succ, Finset.sum_range_zero, zero_mul, zero_add, add_zero, trigMoment_cos, trigMoment_sin, trigMoment_one_left,
      trigMoment_one_right, trigMoment_zero]
    push_cast
    ring

theorem turn_gW (k l : ℝ) : ∫ θ in (0 : ℝ)..2 * Real.pi, (Real.sin θ * (1 + k * Real.cos θ + l * Real.sin θ) * (k * Real.sin θ - l * Real.cos θ)) = k * Real.pi := by
  refine turn_poly 4 (fun a b => match a, b with
    | 0, 2 => (1) * k
    | 0, 3 => (1) * k * l
    | 1, 1 => (-1) * l
    | 1, 2 => (1) * k ^ 2 + (-1) * l ^ 2
    | 2, 1 => (-1) * k * l
    | _, _ => 0) (fun θ => ?_) ?_
  · simp only [Finset.sum_range_succ, Finset.sum_range_zero, zero_mul, zero_add, add_zero]
    ring
  · simp only [Finset.sum_range_succ, Finset.sum_range_zero, zero_mul, zero_add, add_zero, trigMoment_cos, trigMoment_sin, trigMoment_one_left,
      trigMoment_one_right, trigMoment_zero]
    push_cast
    ring

theorem turn_gN (k l σ : ℝ) : ∫ θ in (0 : ℝ)..2 * Real.pi, (-(3 / 2) * (1 - 5 * σ * Real.sin θ ^ 2) * (1 + k * Real.cos θ + l * Real.sin θ) ^ 2 * Real.sin θ - 3 * σ * Real.sin θ * (1 + k * Real.cos θ + l * Real.sin θ) ^ 2 - 3 * σ * Real.sin θ * (1 + k * Real.cos θ + l * Real.sin θ) * (Real.cos θ + k) * Real.cos θ) = -(l * Real.pi * (3 - 9 / 2 * σ)) := by
  refine turn_poly 6 (fun a b => match a, b with
    | 0, 1 => (-3/2) + (-3) * σ
    | 0, 2 => (-3) * l + (-6) * l * σ
    | 0, 3 => (-3/2) * l ^ 2 + (15/2) * σ + (-3) * l ^ 2 * σ
    | 0, 4 => (15) * l * σ
    | 0, 5 => (15/2) * l ^ 2 * σ
    | 1, 1 => (-3) * k + (-9) * k * σ
    | 1, 2 => (-3) * k * l + (-9) * k * l * σ
    | 1, 3 => (15) * k * σ
    | 1, 4 => (15) * k * l * σ
    | 2, 1 => (-3/2) * k ^ 2 + (-6) * k ^ 2 * σ + (-3) * σ
    | 2, 2 => (-3) * l * σ
    | 2, 3 => (15/2) * k ^ 2 * σ
    | 3, 1 => (-3) * k * σ
    | _, _ => 0) (fun θ => ?_) ?_
  · simp only [Finset.sum_range_succ, Finset.sum_range_zero, zero_mul, zero_add, add_zero]
    ring
  · simp only [Finset.sum_range_succ, Finset.sum_range_zero, zero_mul, zero_add, add_zero, trigMoment_cos, trigMoment_sin, trigMoment_one_left,
      trigMoment_one_right, trigMoment_zero]
    push_cast
    ring

theorem turn_gM (k l σ : ℝ) : ∫ θ in (0 : ℝ)..2 * Real.pi, (3 / 2 * (1 - 5 * σ * Real.sin θ ^ 2) * (1 + k * Real.cos θ + l * Real.sin θ) ^ 2 * Real.cos θ - 3 * σ * Real.sin θ ^ 2 * (1 + k * Real.cos θ + l * Real.sin θ) * (Real.cos θ + k) + 3 * σ * Real.sin θ * (1 + k * Real.cos θ + l * Real.sin θ) * (k * Real.sin θ - l * Real.cos θ)) = k * Real.pi * (3 - 9 / 2 * σ) := by
  refine turn_poly 6 (fun a b => match a, b with
    | 1, 0 => (3/2)
    | 1, 1 => (3) * l + (-3) * l * σ
    | 1, 2 => (3/2) * l ^ 2 + (-21/2) * σ + (-3) * l ^ 2 * σ
    | 1, 3 => (-18) * l * σ
    | 1, 4 => (-15/2) * l ^ 2 * σ
    | 2, 0 => (3) * k
    | 2, 1 => (3) * k * l + (-3) * k * l * σ
    | 2, 2 => (-18) * k * σ
    | 2, 3 => (-15) * k * l * σ
    | 3, 0 => (3/2) * k ^ 2
    | 3, 2 => (-15/2) * k ^ 2 * σ
    | _, _ => 0) (fun θ => ?_) ?_
  · simp only [Finset.sum_range_succ, Finset.sum_range_zero, zero_mul, zero_add, add_zero]
    ring
  · simp only [Finset.sum_range_succ, Finset.sum_range_zero, zero_mul, zero_add, add_zero, trigMoment_cos, trigMoment_sin, trigMoment_one_left,
      trigMoment_one_right, trigMoment_zero]
    push_cast
    ring


/-! ## The oblateness -/

/-- Integral of a vector, component by component. -/
noncomputable def intV (a b : ℝ) (F : ℝ → V3 ℝ) : V3 ℝ := ⟨∫ t in a..b, (F t).x, ∫ t in a..b, (F t).y, ∫ t in a..b, (F t).z⟩

section
variable {args : Args ℝ} {mu J R : ℝ} {acc : V3 ℝ → V3 ℝ}

/-- The J2 term along the radius and along the axis. -/
theorem j2_vec (hacc : IsField j2_acc args acc) (hm : args "mu" = some mu) (hJ : args "J2" = some J) (hR : args "R_eq" = some R) (q : V3 ℝ) :
    acc q = (-(3 / 2) * mu * J * R ^ 2 / V3.norm q ^ 5 * (1 - 5 * (q.z / V3.norm q) ^ 2)) • q
      + (-3 * mu * J * R ^ 2 * q.z / V3.norm q ^ 5) • (⟨0, 0, 1⟩ : V3 ℝ) := by
  have h := hacc 0 [] q
  simp only [j2_acc, Args.get, hm, hJ, hR, bind, Except.bind, pure, Except.pure, Except.ok.injEq] at h
  rw [← h]
  ext <;> simp only [add_x, add_y, add_z, smul_x, smul_y, smul_z, Nat.cast_ofNat, Nat.cast_one] <;> ring

end

/-- The velocity in the frame of the node. -/
theorem coe2rv_vel (p e i Ω ω f mu : ℝ) :
    (coe2rv p e i Ω ω f mu).2 = Real.sqrt (mu / p) • ((-(Real.sin (ω + f) + e * Real.sin ω)) • nodeDir Ω
      + (Real.cos (ω + f) + e * Real.cos ω) • aheadDir i Ω) := by
  simp only [coe2rv, perifocalVel_eq]
  ext <;> simp only [M3.mulVec, perifocalToInertial, M3.mul, M3.transpose, rotmat3dx, rotmat3dz, dot,
    nodeDir, aheadDir, add_x, add_y, add_z, smul_x, smul_y, smul_z, sin_real, cos_real, Nat.cast_zero, Nat.cast_one,
    Real.cos_add, Real.sin_add] <;> ring

/-- The rate of the eccentricity vector in the frame of the node. -/
theorem ecc_rate_frame (i Ω A B ρ U H c s k l : ℝ) :
    let r := ρ • (c • nodeDir Ω + s • aheadDir i Ω)
    let v := U • ((-(s + l)) • nodeDir Ω + (c + k) • aheadDir i Ω)
    let f := A • r + B • (⟨0, 0, 1⟩ : V3 ℝ)
    V3.cross f (H • poleDir i Ω) + V3.cross v (V3.cross r f)
      = (A * ρ * H * s + B * H * Real.sin i + B * U * ρ * (c + k) * Real.sin i * c) • nodeDir Ω
        + (-(A * ρ * H * c) + B * U * ρ * (c + k) * Real.sin i * s - B * U * ρ * (k * s - l * c) * Real.sin i) • aheadDir i Ω
        + (-(B * U * ρ * (k * s - l * c) * Real.cos i)) • poleDir i Ω := by
  intro r v f
  have h1 := Real.sin_sq_add_cos_sq Ω
  have h2 := Real.sin_sq_add_cos_sq i
  ext <;> simp only [r, v, f, V3.cross, nodeDir, aheadDir, poleDir, add_x, add_y, add_z, smul_x, smul_y, smul_z] <;> grind

/-- Continuity component by component. -/
structure ContV (F : ℝ → V3 ℝ) : Prop where
  x : Continuous fun t => (F t).x
  y : Continuous fun t => (F t).y
  z : Continuous fun t => (F t).z

namespace ContV
variable {F G : ℝ → V3 ℝ}

theorem of_deriv {F' : ℝ → V3 ℝ} (h : ∀ t, HasDerivV F (F' t) t) : ContV F :=
  ⟨continuous_iff_continuousAt.2 fun t => (h t).x.continuousAt, continuous_iff_continuousAt.2 fun t => (h t).y.continuousAt,
    continuous_iff_continuousAt.2 fun t => (h t).z.continuousAt⟩

theorem const (a : V3 ℝ) : ContV fun _ => a := ⟨continuous_const, continuous_const, continuous_const⟩

theorem cross (hF : ContV F) (hG : ContV G) : ContV fun t => V3.cross (F t) (G t) :=
  ⟨(hF.y.mul hG.z).sub (hF.z.mul hG.y), (hF.z.mul hG.x).sub (hF.x.mul hG.z), (hF.x.mul hG.y).sub (hF.y.mul hG.x)⟩

theorem add (hF : ContV F) (hG : ContV G) : ContV fun t => F t + G t := ⟨hF.x.add hG.x, hF.y.add hG.y, hF.z.add hG.z⟩

theorem smul {a : ℝ → ℝ} (ha : Continuous a) (hF : ContV F) : ContV fun t => a t • F t := ⟨ha.mul hF.x, ha.mul hF.y, ha.mul hF.z⟩

theorem norm (hF : ContV F) : Continuous fun t => V3.norm (F t) := by
  have : (fun t => V3.norm (F t)) = fun t => Real.sqrt ((F t).x * (F t).x + (F t).y * (F t).y + (F t).z * (F t).z) := rfl
  rw [this]
  exact (((hF.x.mul hF.x).add (hF.y.mul hF.y)).add (hF.z.mul hF.z)).sqrt

theorem j2 {args : Args ℝ} {mu J R : ℝ} {acc : V3 ℝ → V3 ℝ} (hacc : IsField j2_acc args acc) (hm : args "mu" = some mu)
    (hJ : args "J2" = some J) (hR : args "R_eq" = some R) (hF : ContV F) (hne : ∀ t, F t ≠ ⟨0, 0, 0⟩) : ContV fun t => acc (F t) := by
  have hn : ∀ t, V3.norm (F t) ≠ 0 := fun t => ((norm_pos _).2 (hne t)).ne'
  have hn5 : ∀ t, V3.norm (F t) ^ 5 ≠ 0 := fun t => pow_ne_zero _ (hn t)
  simp only [j2_vec hacc hm hJ hR]
  have h1 : Continuous fun t => 1 / V3.norm (F t) ^ 5 := continuous_const.div (hF.norm.pow 5) hn5
  refine add (smul ?_ hF) (smul ?_ (const _))
  · exact (continuous_const.div (hF.norm.pow 5) hn5).mul (continuous_const.sub (continuous_const.mul ((hF.z.div hF.norm hn).pow 2)))
  · exact (continuous_const.mul hF.z).div (hF.norm.pow 5) hn5

theorem zonal {args : Args ℝ} {mu J R : ℝ} {acc : V3 ℝ → V3 ℝ} (hm : args "mu" = some mu) (hR : args "R_eq" = some R)
    (hacc : (args "J2" = some J ∧ IsField j2_acc args acc) ∨ (args "J3" = some J ∧ IsField j3_acc args acc) ∨
      (args "J4" = some J ∧ IsField j4_acc args acc)) (hF : ContV F) (hne : ∀ t, F t ≠ ⟨0, 0, 0⟩) : ContV fun t => acc (F t) := by
  have hn : ∀ t, V3.norm (F t) ≠ 0 := fun t => ((norm_pos _).2 (hne t)).ne'
  have hN := hF.norm
  obtain ⟨hx, hy, hz⟩ := hF
  obtain ⟨hJ, ha⟩ | ⟨hJ, ha⟩ | ⟨hJ, ha⟩ := hacc
  · exact j2 ha hm hJ hR ⟨hx, hy, hz⟩ hne
  · have e : ∀ q, acc q = _ := fun q => by
      have h := ha 0 [] q
      simp only [j3_acc, Args.get, hm, hJ, hR, bind, Except.bind, pure, Except.pure, Except.ok.injEq] at h
      exact h.symm
    simp only [e]
    constructor <;> fun_prop (disch := exact fun t => pow_ne_zero _ (hn t))
  · have e : ∀ q, acc q = _ := fun q => by
      have h := ha 0 [] q
      simp only [j4_acc, Args.get, hm, hJ, hR, bind, Except.bind, pure, Except.pure, Except.ok.injEq] at h
      exact h.symm
    simp only [e]
    constructor <;> fun_prop (disch := exact fun t => pow_ne_zero _ (hn t))

end ContV

/-- A linear combination of three means. -/
theorem turn_lin {g1 g2 g3 : ℝ → ℝ} (h1 : Continuous g1) (h2 : Continuous g2) (h3 : Continuous g3) (a b c : ℝ) :
    ∫ θ in (0 : ℝ)..2 * Real.pi, (a * g1 θ + b * g2 θ + c * g3 θ)
      = a * (∫ θ in (0 : ℝ)..2 * Real.pi, g1 θ) + b * (∫ θ in (0 : ℝ)..2 * Real.pi, g2 θ) + c * ∫ θ in (0 : ℝ)..2 * Real.pi, g3 θ := by
  rw [intervalIntegral.integral_add (Continuous.intervalIntegrable (by fun_prop) _ _) (Continuous.intervalIntegrable (by fun_prop) _ _),
    intervalIntegral.integral_add (Continuous.intervalIntegrable (by fun_prop) _ _) (Continuous.intervalIntegrable (by fun_prop) _ _),
    intervalIntegral.integral_const_mul, intervalIntegral.integral_const_mul, intervalIntegral.integral_const_mul]

section
variable {p e mu : ℝ} (hp : 0 < p) (h0 : 0 ≤ e) (h1 : e < 1) (hmu : 0 < mu) (i Ω ω f0 : ℝ)
  {args : Args ℝ} {J R : ℝ} {acc : V3 ℝ → V3 ℝ} (hacc : IsField j2_acc args acc) (hm : args "mu" = some mu)
  (hJ : args "J2" = some J) (hR : args "R_eq" = some R)

include hp hmu h0 h1

theorem orbit_pos (θ : ℝ) : (coe2rv p e i Ω ω (θ - ω) mu).1
    = (p / (1 + e * Real.cos (θ - ω))) • (Real.cos θ • nodeDir Ω + Real.sin θ • aheadDir i Ω) := by
  have hf : 0 < 1 + e * Real.cos (θ - ω) := by nlinarith [Real.neg_one_le_cos (θ - ω)]
  rw [(C32_geometry hp hmu hf i Ω ω).1, add_sub_cancel]; rfl

omit h0 h1 in
theorem orbit_vel (θ : ℝ) : (coe2rv p e i Ω ω (θ - ω) mu).2
    = (Real.sqrt (mu * p) / p) • ((-(Real.sin θ + e * Real.sin ω)) • nodeDir Ω + (Real.cos θ + e * Real.cos ω) • aheadDir i Ω) := by
  rw [coe2rv_vel, add_sub_cancel]
  congr 1
  rw [Real.sqrt_eq_iff_mul_self_eq (by positivity) (by positivity), div_mul_div_comm, Real.mul_self_sqrt (by positivity)]
  field_simp

theorem orbit_cont : ContV (fun f => (coe2rv p e i Ω ω f mu).1) ∧ ContV (fun f => (coe2rv p e i Ω ω f mu).2) := by
  have hf : ∀ f, 1 + e * Real.cos f ≠ 0 := fun f => by nlinarith [Real.neg_one_le_cos f]
  have e1 : (fun f => (coe2rv p e i Ω ω f mu).1)
      = fun f => (p / (1 + e * Real.cos f)) • (Real.cos (ω + f) • nodeDir Ω + Real.sin (ω + f) • aheadDir i Ω) := by
    funext f
    have := orbit_pos hp h0 h1 hmu i Ω ω (ω + f)
    rwa [add_sub_cancel_left] at this
  constructor
  · rw [e1]
    exact .smul (continuous_const.div (by fun_prop) hf) (.add (.smul (by fun_prop) (.const _)) (.smul (by fun_prop) (.const _)))
  · simp only [coe2rv_vel]
    exact .smul continuous_const (.add (.smul (by fun_prop) (.const _)) (.smul (by fun_prop) (.const _)))

theorem orbit_ne (f : ℝ) : (coe2rv p e i Ω ω f mu).1 ≠ ⟨0, 0, 0⟩ := by
  have hf : 0 < 1 + e * Real.cos f := by nlinarith [Real.neg_one_le_cos f]
  intro h
  have h2 := (C32_magnitudes hp hmu hf i Ω ω h0).1
  rw [h] at h2
  have : V3.norm (⟨0, 0, 0⟩ : V3 ℝ) = 0 := (V3.norm_eq_zero _).2 rfl
  rw [this] at h2
  simp only [equ_of_orbit, cos_real, Nat.cast_one] at h2
  have : 0 < p / (1 + e * Real.cos f) := by positivity
  linarith

theorem orbit_h (f : ℝ) : angular_momentum (coe2rv p e i Ω ω f mu).1 (coe2rv p e i Ω ω f mu).2 ≠ ⟨0, 0, 0⟩ := by
  have hf : 0 < 1 + e * Real.cos f := by nlinarith [Real.neg_one_le_cos f]
  rw [(C32_geometry hp hmu hf i Ω ω).2.1]
  intro h
  have h1 := congrArg V3.norm h
  rw [V3.norm_smul, norm_pole, abs_of_nonneg (Real.sqrt_nonneg _), mul_one, (V3.norm_eq_zero _).2 rfl] at h1
  exact (Real.sqrt_pos.2 (mul_pos hmu hp)).ne' h1

/-- The integral over one period of a vector whose weighted value is a trigonometric expression times fixed vectors. -/
theorem average_vec (Φ : V3 ℝ → V3 ℝ → V3 ℝ)
    (c1 : ContV fun t => Φ (exactProp (coe2rv p e i Ω ω f0 mu).1 (coe2rv p e i Ω ω f0 mu).2 mu t).1
      (exactProp (coe2rv p e i Ω ω f0 mu).1 (coe2rv p e i Ω ω f0 mu).2 mu t).2)
    (c2 : ContV fun f => Φ (coe2rv p e i Ω ω f mu).1 (coe2rv p e i Ω ω f mu).2)
    {g1 g2 g3 : ℝ → ℝ} (k1 : Continuous g1) (k2 : Continuous g2) (k3 : Continuous g3) (a b c : V3 ℝ)
    (key : ∀ θ, ((p / (1 + e * Real.cos (θ - ω))) ^ 2 / Real.sqrt (mu * p)) • Φ (coe2rv p e i Ω ω (θ - ω) mu).1 (coe2rv p e i Ω ω (θ - ω) mu).2
      = g1 θ • a + g2 θ • b + g3 θ • c) :
    intV 0 (orb_period (p / (1 - e ^ 2)) mu) (fun t =>
      Φ (exactProp (coe2rv p e i Ω ω f0 mu).1 (coe2rv p e i Ω ω f0 mu).2 mu t).1
        (exactProp (coe2rv p e i Ω ω f0 mu).1 (coe2rv p e i Ω ω f0 mu).2 mu t).2)
    = (∫ θ in (0 : ℝ)..2 * Real.pi, g1 θ) • a + (∫ θ in (0 : ℝ)..2 * Real.pi, g2 θ) • b + (∫ θ in (0 : ℝ)..2 * Real.pi, g3 θ) • c := by
  have ax := C90_average hp h0 h1 hmu i Ω ω f0 (fun r v => (Φ r v).x) c1.x c2.x
  have ay := C90_average hp h0 h1 hmu i Ω ω f0 (fun r v => (Φ r v).y) c1.y c2.y
  have az := C90_average hp h0 h1 hmu i Ω ω f0 (fun r v => (Φ r v).z) c1.z c2.z
  ext <;> simp only [intV, add_x, add_y, add_z, smul_x, smul_y, smul_z]
  · rw [ax, mul_comm _ a.x, mul_comm _ b.x, mul_comm _ c.x, ← turn_lin k1 k2 k3]
    refine intervalIntegral.integral_congr fun θ _ => ?_
    have := congrArg V3.x (key θ)
    simp only [add_x, smul_x] at this
    linarith
  · rw [ay, mul_comm _ a.y, mul_comm _ b.y, mul_comm _ c.y, ← turn_lin k1 k2 k3]
    refine intervalIntegral.integral_congr fun θ _ => ?_
    have := congrArg V3.y (key θ)
    simp only [add_y, smul_y] at this
    linarith
  · rw [az, mul_comm _ a.z, mul_comm _ b.z, mul_comm _ c.z, ← turn_lin k1 k2 k3]
    refine intervalIntegral.integral_congr fun θ _ => ?_
    have := congrArg V3.z (key θ)
    simp only [add_z, smul_z] at this
    linarith

include hacc hm hJ hR

/-- The torque over one period, in the elements. -/
theorem torque_elements :
    intV 0 (orb_period (p / (1 - e ^ 2)) mu) (fun t =>
      V3.cross (exactProp (coe2rv p e i Ω ω f0 mu).1 (coe2rv p e i Ω ω f0 mu).2 mu t).1
        (acc (exactProp (coe2rv p e i Ω ω f0 mu).1 (coe2rv p e i Ω ω f0 mu).2 mu t).1))
    = (-(3 * Real.pi * J * (R / p) ^ 2 * Real.cos i)) • V3.cross ⟨0, 0, 1⟩ (Real.sqrt (mu * p) • poleDir i Ω) := by
  have hk := (C21_solves_two_body hmu (orbit_h hp h0 h1 hmu i Ω ω f0)).2
  have cq : ContV fun t => (exactProp (coe2rv p e i Ω ω f0 mu).1 (coe2rv p e i Ω ω f0 mu).2 mu t).1 := .of_deriv fun t => (hk t trivial).2.1
  have co := (orbit_cont hp h0 h1 hmu i Ω ω).1
  have hH := Real.sqrt_pos.2 (mul_pos hmu hp)
  have hH2 := Real.sq_sqrt (mul_pos hmu hp).le
  rw [average_vec hp h0 h1 hmu i Ω ω f0 (fun r _ => V3.cross r (acc r)) (cq.cross (cq.j2 hacc hm hJ hR fun t => (hk t trivial).1))
    (co.cross (co.j2 hacc hm hJ hR (orbit_ne hp h0 h1 hmu i Ω ω)))
    (g1 := fun θ => (1 + (e * Real.cos ω) * Real.cos θ + (e * Real.sin ω) * Real.sin θ) * Real.sin θ * Real.cos θ)
    (g2 := fun θ => (1 + (e * Real.cos ω) * Real.cos θ + (e * Real.sin ω) * Real.sin θ) * Real.sin θ ^ 2) (g3 := fun _ => 0)
    (by fun_prop) (by fun_prop) (by fun_prop)
    ((-3 * J * (R / p) ^ 2 * Real.sqrt (mu * p) * Real.sin i) • (⟨Real.sin Ω, -Real.cos Ω, 0⟩ : V3 ℝ))
    ((-3 * J * (R / p) ^ 2 * Real.sqrt (mu * p) * Real.sin i * Real.cos i) • nodeDir Ω) ⟨0, 0, 0⟩ ?_, turn_T1, turn_T2]
  · ext <;> simp [V3.cross, nodeDir, poleDir] <;> ring
  · set H := Real.sqrt (mu * p)
    intro θ
    have hf : 0 < 1 + e * Real.cos (θ - ω) := by nlinarith [Real.neg_one_le_cos (θ - ω)]
    have hw : 1 + (e * Real.cos ω) * Real.cos θ + (e * Real.sin ω) * Real.sin θ = 1 + e * Real.cos (θ - ω) := by
      rw [Real.cos_sub]; ring
    have hn : V3.norm (coe2rv p e i Ω ω (θ - ω) mu).1 = p / (1 + e * Real.cos (θ - ω)) := by
      rw [(C32_magnitudes hp hmu hf i Ω ω h0).1]; simp [equ_of_orbit]
    rw [j2_vec hacc hm hJ hR, hn, orbit_pos hp h0 h1 hmu, hw]
    set W := 1 + e * Real.cos (θ - ω)
    clear_value W
    ext <;> simp only [V3.cross, nodeDir, aheadDir, add_x, add_y, add_z, smul_x, smul_y, smul_z]
    · field_simp
      linear_combination (6 * W * J * R ^ 2 * Real.sin θ * Real.sin i * (Real.cos θ * Real.sin Ω + Real.sin θ * Real.cos Ω * Real.cos i)) * hH2
    · field_simp
      linear_combination (6 * W * J * R ^ 2 * Real.sin θ * Real.sin i * (-Real.cos θ * Real.cos Ω + Real.sin θ * Real.sin Ω * Real.cos i)) * hH2
    · ring

/-- The change of the eccentricity vector over one period, in the elements. -/
theorem ecc_elements :
    intV 0 (orb_period (p / (1 - e ^ 2)) mu) (fun t =>
      (1 / mu) • (V3.cross (acc (exactProp (coe2rv p e i Ω ω f0 mu).1 (coe2rv p e i Ω ω f0 mu).2 mu t).1)
          (angular_momentum (exactProp (coe2rv p e i Ω ω f0 mu).1 (coe2rv p e i Ω ω f0 mu).2 mu t).1
            (exactProp (coe2rv p e i Ω ω f0 mu).1 (coe2rv p e i Ω ω f0 mu).2 mu t).2)
        + V3.cross (exactProp (coe2rv p e i Ω ω f0 mu).1 (coe2rv p e i Ω ω f0 mu).2 mu t).2
          (V3.cross (exactProp (coe2rv p e i Ω ω f0 mu).1 (coe2rv p e i Ω ω f0 mu).2 mu t).1
            (acc (exactProp (coe2rv p e i Ω ω f0 mu).1 (coe2rv p e i Ω ω f0 mu).2 mu t).1))))
    = (-(3 * Real.pi * J * (R / p) ^ 2 * Real.cos i)) • V3.cross ⟨0, 0, 1⟩ (e • inPlane i Ω ω)
      + (3 / 2 * Real.pi * J * (R / p) ^ 2 * (5 * Real.cos i ^ 2 - 1)) • V3.cross (poleDir i Ω) (e • inPlane i Ω ω) := by
  have hk := (C21_solves_two_body hmu (orbit_h hp h0 h1 hmu i Ω ω f0)).2
  have cq : ContV fun t => (exactProp (coe2rv p e i Ω ω f0 mu).1 (coe2rv p e i Ω ω f0 mu).2 mu t).1 := .of_deriv fun t => (hk t trivial).2.1
  have cv : ContV fun t => (exactProp (coe2rv p e i Ω ω f0 mu).1 (coe2rv p e i Ω ω f0 mu).2 mu t).2 := .of_deriv fun t => (hk t trivial).2.2
  have ca := cq.j2 hacc hm hJ hR fun t => (hk t trivial).1
  obtain ⟨co, cw⟩ := orbit_cont hp h0 h1 hmu i Ω ω
  have cb := co.j2 hacc hm hJ hR (orbit_ne hp h0 h1 hmu i Ω ω)
  have hH := Real.sqrt_pos.2 (mul_pos hmu hp)
  have hH2 := Real.sq_sqrt (mul_pos hmu hp).le
  have hi := Real.sin_sq_add_cos_sq i
  have hΩ := Real.sin_sq_add_cos_sq Ω
  rw [average_vec hp h0 h1 hmu i Ω ω f0
    (fun r v => (1 / mu) • (V3.cross (acc r) (angular_momentum r v) + V3.cross v (V3.cross r (acc r))))
    (.smul continuous_const ((ca.cross (cq.cross cv)).add (cv.cross (cq.cross ca))))
    (.smul continuous_const ((cb.cross (co.cross cw)).add (cw.cross (co.cross cb))))
    (g1 := fun θ => -(3 / 2) * (1 - 5 * Real.sin i ^ 2 * Real.sin θ ^ 2) * (1 + (e * Real.cos ω) * Real.cos θ + (e * Real.sin ω) * Real.sin θ) ^ 2 * Real.sin θ
      - 3 * Real.sin i ^ 2 * Real.sin θ * (1 + (e * Real.cos ω) * Real.cos θ + (e * Real.sin ω) * Real.sin θ) ^ 2
      - 3 * Real.sin i ^ 2 * Real.sin θ * (1 + (e * Real.cos ω) * Real.cos θ + (e * Real.sin ω) * Real.sin θ) * (Real.cos θ + e * Real.cos ω) * Real.cos θ)
    (g2 := fun θ => 3 / 2 * (1 - 5 * Real.sin i ^ 2 * Real.sin θ ^ 2) * (1 + (e * Real.cos ω) * Real.cos θ + (e * Real.sin ω) * Real.sin θ) ^ 2 * Real.cos θ
      - 3 * Real.sin i ^ 2 * Real.sin θ ^ 2 * (1 + (e * Real.cos ω) * Real.cos θ + (e * Real.sin ω) * Real.sin θ) * (Real.cos θ + e * Real.cos ω)
      + 3 * Real.sin i ^ 2 * Real.sin θ * (1 + (e * Real.cos ω) * Real.cos θ + (e * Real.sin ω) * Real.sin θ) * ((e * Real.cos ω) * Real.sin θ - (e * Real.sin ω) * Real.cos θ))
    (g3 := fun θ => Real.sin θ * (1 + (e * Real.cos ω) * Real.cos θ + (e * Real.sin ω) * Real.sin θ) * ((e * Real.cos ω) * Real.sin θ - (e * Real.sin ω) * Real.cos θ))
    (by fun_prop) (by fun_prop) (by fun_prop)
    ((J * (R / p) ^ 2) • nodeDir Ω) ((J * (R / p) ^ 2) • aheadDir i Ω) ((3 * J * (R / p) ^ 2 * Real.sin i * Real.cos i) • poleDir i Ω) ?_,
    turn_gN, turn_gM, turn_gW]
  · ext <;> simp only [V3.cross, inPlane, nodeDir, aheadDir, poleDir, add_x, add_y, add_z, smul_x, smul_y, smul_z] <;> grind
  · intro θ
    have hf : 0 < 1 + e * Real.cos (θ - ω) := by nlinarith [Real.neg_one_le_cos (θ - ω)]
    have hw : 1 + (e * Real.cos ω) * Real.cos θ + (e * Real.sin ω) * Real.sin θ = 1 + e * Real.cos (θ - ω) := by
      rw [Real.cos_sub]; ring
    have hn : V3.norm (coe2rv p e i Ω ω (θ - ω) mu).1 = p / (1 + e * Real.cos (θ - ω)) := by
      rw [(C32_magnitudes hp hmu hf i Ω ω h0).1]; simp [equ_of_orbit]
    rw [(C32_geometry hp hmu hf i Ω ω).2.1, j2_vec hacc hm hJ hR, hn, orbit_pos hp h0 h1 hmu, orbit_vel hp hmu, ecc_rate_frame, hw]
    set W := 1 + e * Real.cos (θ - ω)
    have hz : ((p / W) • (Real.cos θ • nodeDir Ω + Real.sin θ • aheadDir i Ω)).z = p / W * (Real.sin θ * Real.sin i) := by
      simp [nodeDir, aheadDir]
    rw [hz]
    clear_value W
    generalize Real.sqrt (mu * p) = H at hH hH2 ⊢
    generalize hN : nodeDir Ω = N
    generalize hM : aheadDir i Ω = M
    generalize hP : poleDir i Ω = P
    ext <;> simp only [add_x, add_y, add_z, smul_x, smul_y, smul_z] <;> field_simp <;> ring

end

/-! ## For the state -/

section
variable {r v : V3 ℝ} {mu : ℝ} (hmu : 0 < mu) (hh : angular_momentum r v ≠ ⟨0, 0, 0⟩) (hell : V3.norm (eccentricity_vector r v mu) < 1)
include hmu hh hell

/-- The elements of an elliptic state, with the period the library computes. -/
theorem elliptic_elements : ∃ p e i Ω ω f, 0 < p ∧ 0 ≤ e ∧ e < 1 ∧ coe2rv p e i Ω ω f mu = (r, v) ∧
    semiparameter (V3.norm (angular_momentum r v)) mu = p ∧ angular_momentum r v = Real.sqrt (mu * p) • poleDir i Ω ∧
    Real.cos (inclination (angular_momentum r v)) = Real.cos i ∧ eccentricity_vector r v mu = e • inPlane i Ω ω ∧
    semimajor_axis (V3.norm r) (V3.norm v) mu = p / (1 - e ^ 2) := by
  obtain ⟨p, e, i, Ω, ω, f, hp, he, hi, -, -, -, hf, hc⟩ := C34_coe2rv_surjective hmu hh
  obtain ⟨-, g2, g3, -⟩ := C32_geometry hp hmu hf i Ω ω
  obtain ⟨-, m2, m3⟩ := C32_magnitudes hp hmu hf i Ω ω he
  rw [hc] at g2 g3 m2 m3
  simp only at g2 g3 m2 m3
  rw [m3] at hell
  have hα := pOf_alpha hmu hh
  have hq : 0 < 1 - e ^ 2 := by nlinarith
  refine ⟨p, e, i, Ω, ω, f, hp, he, hell, hc, m2, g2, ?_, g3, ?_⟩
  · have hH := Real.sqrt_pos.2 (mul_pos hmu hp)
    have : V3.norm (angular_momentum r v) = Real.sqrt (mu * p) := by
      rw [g2, V3.norm_smul, norm_pole, abs_of_pos hH, mul_one]
    rw [inclination, this, g2]
    change Real.cos (Real.arccos ((Real.sqrt (mu * p) * Real.cos i) / Real.sqrt (mu * p))) = _
    rw [mul_div_cancel_left₀ _ hH.ne', Real.arccos_cos hi.1 hi.2]
  · rw [pOf, eOf, m2, m3] at hα
    have e1 : alphaOf r v mu = (1 - e ^ 2) / p := by rw [eq_div_iff hp.ne']; linarith
    have e2 : semimajor_axis (V3.norm r) (V3.norm v) mu = 1 / alphaOf r v mu := by
      simp only [alphaOf, one_div_one_div]
    rw [e2, e1, one_div_div]

variable {args : Args ℝ} {J R : ℝ} {acc : V3 ℝ → V3 ℝ} (hacc : IsField j2_acc args acc) (hm : args "mu" = some mu)
  (hJ : args "J2" = some J) (hR : args "R_eq" = some R)
include hacc hm hJ hR

/-- C90: over one period of an elliptic orbit the torque of the oblateness turns the angular momentum about the axis of the planet, by
`-3π J2 (R/p)² cos i`: the node regresses on prograde orbits, and neither `|h|` nor the inclination changes. -/
theorem C90_node :
    intV 0 (orb_period (semimajor_axis (V3.norm r) (V3.norm v) mu) mu)
      (fun t => V3.cross (exactProp r v mu t).1 (acc (exactProp r v mu t).1))
    = (-(3 * Real.pi * J * (R / semiparameter (V3.norm (angular_momentum r v)) mu) ^ 2 * Real.cos (inclination (angular_momentum r v)))) •
        V3.cross ⟨0, 0, 1⟩ (angular_momentum r v) := by
  obtain ⟨p, e, i, Ω, ω, f, hp, he, h1, hc, ep, eh, ei, ee, ea⟩ := elliptic_elements hmu hh hell
  have h := torque_elements hp he h1 hmu i Ω ω f hacc hm hJ hR
  rw [hc] at h
  rw [ep, ei, ea, eh]
  exact h

/-- C90: over one period the eccentricity vector turns with the node and, in the plane of the orbit, by `3/2 π J2 (R/p)² (5 cos² i - 1)`: the
periapsis advances below the critical inclination and regresses above it; the eccentricity does not change. -/
theorem C90_periapsis :
    intV 0 (orb_period (semimajor_axis (V3.norm r) (V3.norm v) mu) mu)
      (fun t => (1 / mu) • (V3.cross (acc (exactProp r v mu t).1) (angular_momentum (exactProp r v mu t).1 (exactProp r v mu t).2)
        + V3.cross (exactProp r v mu t).2 (V3.cross (exactProp r v mu t).1 (acc (exactProp r v mu t).1))))
    = (-(3 * Real.pi * J * (R / semiparameter (V3.norm (angular_momentum r v)) mu) ^ 2 * Real.cos (inclination (angular_momentum r v)))) •
        V3.cross ⟨0, 0, 1⟩ (eccentricity_vector r v mu)
      + (3 / 2 * Real.pi * J * (R / semiparameter (V3.norm (angular_momentum r v)) mu) ^ 2 *
          (5 * Real.cos (inclination (angular_momentum r v)) ^ 2 - 1) / V3.norm (angular_momentum r v)) •
        V3.cross (angular_momentum r v) (eccentricity_vector r v mu) := by
  obtain ⟨p, e, i, Ω, ω, f, hp, he, h1, hc, ep, eh, ei, ee, ea⟩ := elliptic_elements hmu hh hell
  have h := ecc_elements hp he h1 hmu i Ω ω f hacc hm hJ hR
  rw [hc] at h
  have hH := Real.sqrt_pos.2 (mul_pos hmu hp)
  have hn : V3.norm (angular_momentum r v) = Real.sqrt (mu * p) := by
    rw [eh, V3.norm_smul, norm_pole, abs_of_pos hH, mul_one]
  rw [ep, ei, ea, hn, ee, eh]
  refine h.trans ?_
  congr 1
  ext <;> simp only [V3.cross, smul_x, smul_y, smul_z] <;> field_simp

end

/-- C90: the change of the semimajor axis over one period (C88) vanishes for every zonal term. -/
theorem C90_energy {r v : V3 ℝ} {mu : ℝ} (hmu : 0 < mu) (hh : angular_momentum r v ≠ ⟨0, 0, 0⟩)
    (hell : V3.norm (eccentricity_vector r v mu) < 1) {args : Args ℝ} {J R : ℝ} (hm : args "mu" = some mu) (hR : args "R_eq" = some R)
    {acc : V3 ℝ → V3 ℝ} (hacc : (args "J2" = some J ∧ IsField j2_acc args acc) ∨ (args "J3" = some J ∧ IsField j3_acc args acc) ∨
      (args "J4" = some J ∧ IsField j4_acc args acc)) :
    ∫ t in (0 : ℝ)..orb_period (semimajor_axis (V3.norm r) (V3.norm v) mu) mu,
      V3.dot (acc (exactProp r v mu t).1) (exactProp r v mu t).2 = 0 := by
  obtain ⟨p, e, i, Ω, ω, f, hp, he, h1, hc, ep, eh, ei, ee, ea⟩ := elliptic_elements hmu hh hell
  have hcl := period_closes hp he h1 hmu i Ω ω f
  rw [hc, ← ea] at hcl
  simp only at hcl
  obtain ⟨hz, hk⟩ := C21_solves_two_body hmu hh
  have cq : ContV fun t => (exactProp r v mu t).1 := .of_deriv fun t => (hk t trivial).2.1
  have cv : ContV fun t => (exactProp r v mu t).2 := .of_deriv fun t => (hk t trivial).2.2
  have ca := cq.zonal hm hR hacc fun t => (hk t trivial).1
  have hi : Continuous fun t => V3.dot (acc (exactProp r v mu t).1) (exactProp r v mu t).2 :=
    ((ca.x.mul cv.x).add (ca.y.mul cv.y)).add (ca.z.mul cv.z)
  have go : ∀ n, (∀ t, HasDerivAt (fun t => zonalPotential n mu J R (exactProp r v mu t).1)
      (V3.dot (acc (exactProp r v mu t).1) (exactProp r v mu t).2) t) →
      ∫ t in (0 : ℝ)..orb_period (semimajor_axis (V3.norm r) (V3.norm v) mu) mu,
        V3.dot (acc (exactProp r v mu t).1) (exactProp r v mu t).2 = 0 := by
    intro n h
    rw [intervalIntegral.integral_eq_sub_of_hasDerivAt (fun t _ => h t) (hi.intervalIntegrable _ _), hcl, hz, sub_self]
  obtain ⟨hJ, ha⟩ | ⟨hJ, ha⟩ | ⟨hJ, ha⟩ := hacc
  · refine go 2 fun t => ?_
    obtain ⟨b, e1, g⟩ := C40_j2 (t := t) (x := ⟨(exactProp r v mu t).1, []⟩) (hk t trivial).1 hm hJ hR
    rw [ha] at e1; cases e1
    exact g _ _ t rfl (hk t trivial).2.1
  · refine go 3 fun t => ?_
    obtain ⟨b, e1, g⟩ := C40_j3 (t := t) (x := ⟨(exactProp r v mu t).1, []⟩) (hk t trivial).1 hm hJ hR
    rw [ha] at e1; cases e1
    exact g _ _ t rfl (hk t trivial).2.1
  · refine go 4 fun t => ?_
    obtain ⟨b, e1, g⟩ := C40_j4 (t := t) (x := ⟨(exactProp r v mu t).1, []⟩) (hk t trivial).1 hm hJ hR
    rw [ha] at e1; cases e1
    exact g _ _ t rfl (hk t trivial).2.1

/-- C90: to first order the oblateness leaves the length and the polar component of the angular momentum and the eccentricity as they are. -/
theorem C90_constants {r v : V3 ℝ} {mu : ℝ} (hmu : 0 < mu) (hh : angular_momentum r v ≠ ⟨0, 0, 0⟩)
    (hell : V3.norm (eccentricity_vector r v mu) < 1) {args : Args ℝ} {J R : ℝ} {acc : V3 ℝ → V3 ℝ} (hacc : IsField j2_acc args acc)
    (hm : args "mu" = some mu) (hJ : args "J2" = some J) (hR : args "R_eq" = some R) :
    let T := orb_period (semimajor_axis (V3.norm r) (V3.norm v) mu) mu
    let dh := intV 0 T fun t => V3.cross (exactProp r v mu t).1 (acc (exactProp r v mu t).1)
    let de := intV 0 T fun t => (1 / mu) • (V3.cross (acc (exactProp r v mu t).1)
      (angular_momentum (exactProp r v mu t).1 (exactProp r v mu t).2)
        + V3.cross (exactProp r v mu t).2 (V3.cross (exactProp r v mu t).1 (acc (exactProp r v mu t).1)))
    V3.dot dh (angular_momentum r v) = 0 ∧ dh.z = 0 ∧ V3.dot de (eccentricity_vector r v mu) = 0 := by
  intro T dh de
  have h1 : dh = _ := C90_node hmu hh hell hacc hm hJ hR
  have h2 : de = _ := C90_periapsis hmu hh hell hacc hm hJ hR
  rw [h1, h2]
  refine ⟨?_, ?_, ?_⟩ <;> simp only [V3.dot, V3.cross, add_x, add_y, add_z, smul_x, smul_y, smul_z] <;> ring

/-- C90: the periapsis stays where it is in the plane of the orbit exactly at the critical inclination, `5 cos² i = 1`. -/
theorem C90_critical {r v : V3 ℝ} {mu : ℝ} (hmu : 0 < mu) (hh : angular_momentum r v ≠ ⟨0, 0, 0⟩)
    (hell : V3.norm (eccentricity_vector r v mu) < 1) (he : eccentricity_vector r v mu ≠ ⟨0, 0, 0⟩) {args : Args ℝ} {J R : ℝ}
    {acc : V3 ℝ → V3 ℝ} (hacc : IsField j2_acc args acc) (hm : args "mu" = some mu) (hJ : args "J2" = some J) (hR : args "R_eq" = some R)
    (hJ0 : J ≠ 0) (hR0 : R ≠ 0) :
    intV 0 (orb_period (semimajor_axis (V3.norm r) (V3.norm v) mu) mu)
      (fun t => (1 / mu) • (V3.cross (acc (exactProp r v mu t).1) (angular_momentum (exactProp r v mu t).1 (exactProp r v mu t).2)
        + V3.cross (exactProp r v mu t).2 (V3.cross (exactProp r v mu t).1 (acc (exactProp r v mu t).1))))
      = (-(3 * Real.pi * J * (R / semiparameter (V3.norm (angular_momentum r v)) mu) ^ 2 * Real.cos (inclination (angular_momentum r v)))) •
        V3.cross ⟨0, 0, 1⟩ (eccentricity_vector r v mu)
      ↔ 5 * Real.cos (inclination (angular_momentum r v)) ^ 2 = 1 := by
  rw [C90_periapsis hmu hh hell hacc hm hJ hR]
  have hn := (norm_pos _).2 hh
  have hen := (norm_pos _).2 he
  have hp : semiparameter (V3.norm (angular_momentum r v)) mu ≠ 0 := (pOf_pos hh hmu).ne'
  have hx : V3.norm (V3.cross (angular_momentum r v) (eccentricity_vector r v mu)) ^ 2
      = V3.norm (angular_momentum r v) ^ 2 * V3.norm (eccentricity_vector r v mu) ^ 2 := by
    have h0 := ecc_dot_h r v mu
    rw [norm_sq, norm_sq, norm_sq]
    have h0' : V3.dot (eccentricity_vector r v mu) (angular_momentum r v) = 0 := h0
    generalize eccentricity_vector r v mu = E at *
    generalize angular_momentum r v = H at *
    simp only [V3.dot, V3.cross] at *
    linear_combination -(E.x * H.x + E.y * H.y + E.z * H.z) * h0'
  constructor
  · intro h
    generalize hc : V3.cross (angular_momentum r v) (eccentricity_vector r v mu) = c at *
    have h2 : ((3 / 2 * Real.pi * J * (R / semiparameter (V3.norm (angular_momentum r v)) mu) ^ 2 *
          (5 * Real.cos (inclination (angular_momentum r v)) ^ 2 - 1) / V3.norm (angular_momentum r v)) • c) = ⟨0, 0, 0⟩ := by
      have hx := congrArg V3.x h; have hy := congrArg V3.y h; have hz := congrArg V3.z h
      simp only [add_x, add_y, add_z] at hx hy hz
      ext <;> simp only <;> linarith
    have h3 := congrArg V3.norm h2
    rw [V3.norm_smul, (V3.norm_eq_zero _).2 rfl] at h3
    have hcn : V3.norm c ≠ 0 := by
      intro h0
      rw [h0] at hx
      have : 0 < V3.norm (angular_momentum r v) ^ 2 * V3.norm (eccentricity_vector r v mu) ^ 2 := by positivity
      linarith
    have h4 := abs_eq_zero.1 ((mul_eq_zero.1 h3).resolve_right hcn)
    rw [div_eq_zero_iff, or_iff_left hn.ne', mul_eq_zero] at h4
    have h5 := h4.resolve_left (by have := Real.pi_pos; positivity)
    linarith
  · intro h
    have : 5 * Real.cos (inclination (angular_momentum r v)) ^ 2 - 1 = 0 := by linarith
    rw [this]
    ext <;> simp

/-- Non-vacuity: an inclined ellipse of eccentricity 1/2 with J2 = 1. -/
example : ∃ (r v : V3 ℝ) (args : Args ℝ) (acc : V3 ℝ → V3 ℝ), angular_momentum r v ≠ ⟨0, 0, 0⟩ ∧ V3.norm (eccentricity_vector r v 1) < 1 ∧
    eccentricity_vector r v 1 ≠ ⟨0, 0, 0⟩ ∧ V3.cross ⟨0, 0, 1⟩ (angular_momentum r v) ≠ ⟨0, 0, 0⟩ ∧ IsField j2_acc args acc ∧
    args "mu" = some 1 ∧ args "J2" = some 1 ∧ args "R_eq" = some 1 := by
  have hn : V3.norm (⟨1, 0, 0⟩ : V3 ℝ) = 1 := by simp [V3.norm, V3.dot]
  have he : eccentricity_vector (⟨1, 0, 0⟩ : V3 ℝ) ⟨0, 1 / 2, 1 / 2⟩ 1 = ⟨-(1 / 2), 0, 0⟩ := by
    ext <;> simp only [eccentricity_vector, hn] <;> norm_num [angular_momentum, V3.cross, V3.dot]
  refine ⟨⟨1, 0, 0⟩, ⟨0, 1 / 2, 1 / 2⟩, fun _ => some 1, fun q => (match j2_acc 0 ⟨q, []⟩ (fun _ => some (1 : ℝ)) with | .ok a => a | .error _ => q), ?_,
    ?_, ?_, ?_, fun t rest q => rfl, rfl, rfl, rfl⟩
  · intro h; have := congrArg V3.y h; norm_num [angular_momentum, V3.cross] at this
  · rw [he]
    simp only [V3.norm, V3.dot, sqrt_real]
    rw [Real.sqrt_lt' one_pos]; norm_num
  · rw [he]; intro h; have := congrArg V3.x h; norm_num at this
  · intro h; have := congrArg V3.x h; norm_num [angular_momentum, V3.cross] at this

end Adx
