import Verif.Lemmas.Dalitz
import Mathlib.Analysis.SpecialFunctions.Log.Deriv
import Mathlib.MeasureTheory.Integral.IntervalIntegral.FundThmCalculus
/-!
# Phase space of a decay at rest with one product that has mass
-/
namespace PyBBN
open MeasureTheory Set

/-- Phase-space suppression of a decay with one product of mass `x` times that of the parent. -/
noncomputable def massFactor (x : ℝ) : ℝ := 1 - 8 * x ^ 2 + 8 * x ^ 6 - x ^ 8 - 24 * x ^ 4 * Real.log x

/-- No product has mass. -/
theorem dalitz_massless {M : ℝ} (hM : 0 < M) :
    dalitz M 0 0 0 (fun E => M * E * ((M ^ 2 + 0 ^ 2 - 2 * M * E - 0 ^ 2 - 0 ^ 2) / 2)) = M ^ 6 / 192 := by
  unfold dalitz
  have e : ∀ E ∈ Ioo (0:ℝ) (M / 2), √(E ^ 2 - 0 ^ 2) * √(kallen (M ^ 2 + 0 ^ 2 - 2 * M * E) (0 ^ 2) (0 ^ 2)) /
      (M ^ 2 + 0 ^ 2 - 2 * M * E) * (M * E * ((M ^ 2 + 0 ^ 2 - 2 * M * E - 0 ^ 2 - 0 ^ 2) / 2)) =
      0 + M ^ 3 / 2 * E ^ 2 + (-M ^ 2) * E ^ 3 := by
    intro E hE
    have hs : 0 < M ^ 2 - 2 * M * E := by nlinarith [hE.2]
    rw [kallen_factor, show E ^ 2 - (0:ℝ) ^ 2 = E ^ 2 by ring, Real.sqrt_sq hE.1.le,
      show (M ^ 2 + 0 ^ 2 - 2 * M * E - (0 + 0) ^ 2) * (M ^ 2 + 0 ^ 2 - 2 * M * E - (0 - 0) ^ 2) = (M ^ 2 - 2 * M * E) ^ 2 by ring,
      Real.sqrt_sq hs.le, show M ^ 2 + (0:ℝ) ^ 2 - 2 * M * E = M ^ 2 - 2 * M * E by ring, mul_div_assoc, div_self hs.ne']
    ring
  rw [show (M ^ 2 + 0 ^ 2 - (0 + 0) ^ 2) / (2 * M) = M / 2 by field_simp; ring]
  rw [intervalIntegral.integral_congr_Ioo_of_le (by positivity) e, integral_cubic]
  field_simp
  ring

/-- The product paired with the parent is massless, one of the others is not. -/
theorem dalitz_other_mass {M μ : ℝ} (hM : 0 < M) (hμ : 0 < μ) (h : μ ≤ M) :
    dalitz M 0 μ 0 (fun E => M * E * ((M ^ 2 + 0 ^ 2 - 2 * M * E - μ ^ 2 - 0 ^ 2) / 2)) = M ^ 6 / 192 * massFactor (μ / M) := by
  unfold dalitz
  set X := (M ^ 2 + 0 ^ 2 - (μ + 0) ^ 2) / (2 * M) with hX
  have hX' : X = (M ^ 2 - μ ^ 2) / (2 * M) := by rw [hX]; ring
  have hX0 : 0 ≤ X := by rw [hX']; apply div_nonneg _ (by positivity); nlinarith
  have hsX : ∀ E, E ≤ X → μ ^ 2 ≤ M ^ 2 - 2 * M * E := by
    intro E hE
    rw [hX', le_div_iff₀ (by positivity)] at hE
    linarith
  set A := M ^ 2 with hA
  set B := μ ^ 2 with hB
  have hB0 : 0 < B := by positivity
  have e : ∀ E ∈ Ioo (0:ℝ) X, √(E ^ 2 - 0 ^ 2) * √(kallen (A + 0 ^ 2 - 2 * M * E) B (0 ^ 2)) /
      (A + 0 ^ 2 - 2 * M * E) * (M * E * ((A + 0 ^ 2 - 2 * M * E - B - 0 ^ 2) / 2)) =
      M * E ^ 2 * (A - 2 * M * E - B) ^ 2 / (2 * (A - 2 * M * E)) := by
    intro E hE
    have h1 := hsX E hE.2.le
    have hs : 0 < A - 2 * M * E := by linarith
    rw [hB, kallen_factor, ← hB, show E ^ 2 - (0:ℝ) ^ 2 = E ^ 2 by ring, Real.sqrt_sq hE.1.le,
      show (A + 0 ^ 2 - 2 * M * E - (μ + 0) ^ 2) * (A + 0 ^ 2 - 2 * M * E - (μ - 0) ^ 2) = (A - 2 * M * E - B) ^ 2 by rw [hB]; ring,
      Real.sqrt_sq (by linarith), show A + (0:ℝ) ^ 2 - 2 * M * E = A - 2 * M * E by ring]
    field_simp
    ring
  rw [intervalIntegral.integral_congr_Ioo_of_le hX0 e]
  set P : ℝ → ℝ := fun s => s ^ 4 / 4 - 2 * (A + B) / 3 * s ^ 3 + ((A + B) ^ 2 + 2 * A * B) / 2 * s ^ 2
    - 2 * A * B * (A + B) * s + A ^ 2 * B ^ 2 * Real.log s with hP
  have hPd : ∀ s, 0 < s → HasDerivAt P ((A - s) ^ 2 * (s - B) ^ 2 / s) s := by
    intro s hs
    have := ((((((hasDerivAt_pow 4 s).div_const 4).sub ((hasDerivAt_pow 3 s).const_mul (2 * (A + B) / 3))).add
      ((hasDerivAt_pow 2 s).const_mul (((A + B) ^ 2 + 2 * A * B) / 2))).sub
      ((hasDerivAt_id s).const_mul (2 * A * B * (A + B)))).add
      ((Real.hasDerivAt_log hs.ne').const_mul (A ^ 2 * B ^ 2)))
    refine this.congr_deriv ?_
    have := hs.ne'
    push_cast
    field_simp
    ring
  have hd : ∀ E ∈ uIcc 0 X, HasDerivAt (fun E => -(P (A - 2 * M * E) / (16 * A)))
      (M * E ^ 2 * (A - 2 * M * E - B) ^ 2 / (2 * (A - 2 * M * E))) E := by
    intro E hE
    rw [uIcc_of_le hX0] at hE
    have hs : 0 < A - 2 * M * E := lt_of_lt_of_le hB0 (hsX E hE.2)
    have hin : HasDerivAt (fun E => A - 2 * M * E) (-(2 * M)) E := by
      have := ((hasDerivAt_id E).const_mul (2 * M)).const_sub A
      simpa using this
    have := (((hPd _ hs).comp E hin).div_const (16 * A)).neg
    refine this.congr_deriv ?_
    have := hs.ne'
    rw [hA] at *
    field_simp
    ring
  rw [intervalIntegral.integral_eq_sub_of_hasDerivAt hd]
  · have hXs : A - 2 * M * X = B := by rw [hX', ]; field_simp; ring
    rw [hXs, show A - 2 * M * 0 = A by ring]
    have hlog : Real.log (μ / M) = (Real.log B - Real.log A) / 2 := by
      rw [Real.log_div hμ.ne' hM.ne', hA, hB, Real.log_pow, Real.log_pow]; push_cast; ring
    unfold massFactor
    rw [hlog]
    have q : ∀ n : ℕ, (μ / M) ^ (2 * n) = (B / A) ^ n := by intro n; rw [pow_mul, hA, hB, div_pow]
    rw [show M ^ 6 = A ^ 3 by rw [hA]; ring, show (μ / M) ^ 2 = (B / A) ^ 1 from q 1, show (μ / M) ^ 6 = (B / A) ^ 3 from q 3,
      show (μ / M) ^ 8 = (B / A) ^ 4 from q 4, show (μ / M) ^ 4 = (B / A) ^ 2 from q 2]
    simp only [hP]
    have hA0 : A ≠ 0 := by rw [hA]; positivity
    generalize Real.log A = la
    generalize Real.log B = lb
    clear_value A B
    field_simp
    ring
  · apply ContinuousOn.intervalIntegrable
    rw [uIcc_of_le hX0]
    apply ContinuousOn.div (by fun_prop) (by fun_prop)
    intro E hE
    have := hsX E hE.2
    have : 0 < A - 2 * M * E := by linarith
    positivity

/-- The product paired with the parent is the massive one. -/
theorem dalitz_partner_mass {M μ : ℝ} (hM : 0 < M) (hμ : 0 < μ) (h : μ ≤ M) :
    dalitz M μ 0 0 (fun E => M * E * ((M ^ 2 + μ ^ 2 - 2 * M * E - 0 ^ 2 - 0 ^ 2) / 2)) = M ^ 6 / 192 * massFactor (μ / M) := by
  unfold dalitz
  set X := (M ^ 2 + μ ^ 2 - (0 + 0) ^ 2) / (2 * M) with hX
  have hX' : X = (M ^ 2 + μ ^ 2) / (2 * M) := by rw [hX]; ring
  have hX0 : μ ≤ X := by rw [hX', le_div_iff₀ (by positivity)]; nlinarith [sq_nonneg (M - μ)]
  have e : ∀ E ∈ Ioo μ X, √(E ^ 2 - μ ^ 2) * √(kallen (M ^ 2 + μ ^ 2 - 2 * M * E) (0 ^ 2) (0 ^ 2)) /
      (M ^ 2 + μ ^ 2 - 2 * M * E) * (M * E * ((M ^ 2 + μ ^ 2 - 2 * M * E - 0 ^ 2 - 0 ^ 2) / 2)) =
      √(E ^ 2 - μ ^ 2) * (M * E * (M ^ 2 + μ ^ 2 - 2 * M * E) / 2) := by
    intro E hE
    have hs : 0 < M ^ 2 + μ ^ 2 - 2 * M * E := by
      have := hE.2
      rw [hX', lt_div_iff₀ (by positivity)] at this
      linarith
    rw [kallen_factor, show (M ^ 2 + μ ^ 2 - 2 * M * E - (0 + 0) ^ 2) * (M ^ 2 + μ ^ 2 - 2 * M * E - (0 - 0) ^ 2) =
      (M ^ 2 + μ ^ 2 - 2 * M * E) ^ 2 by ring, Real.sqrt_sq hs.le, mul_div_assoc, div_self hs.ne']
    ring
  rw [intervalIntegral.integral_congr_Ioo_of_le hX0 e]
  set H : ℝ → ℝ := fun E => M / 2 * ((M ^ 2 + μ ^ 2) / 3 * √(E ^ 2 - μ ^ 2) ^ 3 - 2 * M * (E * √(E ^ 2 - μ ^ 2) ^ 3 / 4 +
    μ ^ 2 / 8 * (E * √(E ^ 2 - μ ^ 2)) - μ ^ 4 / 8 * Real.log (E + √(E ^ 2 - μ ^ 2)))) with hH
  have hc : ContinuousOn H (Icc μ X) := by
    have hlog : ContinuousOn (fun E => Real.log (E + √(E ^ 2 - μ ^ 2))) (Icc μ X) := by
      apply ContinuousOn.log (by fun_prop)
      intro E hE
      have : 0 ≤ √(E ^ 2 - μ ^ 2) := Real.sqrt_nonneg _
      have : 0 < E := lt_of_lt_of_le hμ hE.1
      positivity
    have h1 : ContinuousOn (fun E => (M ^ 2 + μ ^ 2) / 3 * √(E ^ 2 - μ ^ 2) ^ 3) (Icc μ X) := by fun_prop
    have h2 : ContinuousOn (fun E => E * √(E ^ 2 - μ ^ 2) ^ 3 / 4 + μ ^ 2 / 8 * (E * √(E ^ 2 - μ ^ 2))) (Icc μ X) := by fun_prop
    exact continuousOn_const.mul (h1.sub (continuousOn_const.mul (h2.sub (continuousOn_const.mul hlog))))
  have hd : ∀ E ∈ Ioo μ X, HasDerivAt H (√(E ^ 2 - μ ^ 2) * (M * E * (M ^ 2 + μ ^ 2 - 2 * M * E) / 2)) E := by
    intro E hE
    have hE0 : 0 < E := hμ.trans hE.1
    have hq : 0 < E ^ 2 - μ ^ 2 := by nlinarith [hE.1]
    have hp : HasDerivAt (fun E => √(E ^ 2 - μ ^ 2)) (E / √(E ^ 2 - μ ^ 2)) E := by
      have := ((hasDerivAt_pow 2 E).sub_const (μ ^ 2)).sqrt hq.ne'
      refine this.congr_deriv ?_
      push_cast
      rw [pow_one]
      field_simp
    set p := √(E ^ 2 - μ ^ 2) with hpdef
    have hp0 : 0 < p := Real.sqrt_pos.mpr hq
    have hp2 : p ^ 2 = E ^ 2 - μ ^ 2 := Real.sq_sqrt hq.le
    have hlog := ((hasDerivAt_id E).add hp).log (show id E + p ≠ 0 by have : 0 < id E := hE0; positivity)
    have t1 := (hp.pow 3).const_mul ((M ^ 2 + μ ^ 2) / 3)
    have t2 := ((hasDerivAt_id E).mul (hp.pow 3)).div_const 4
    have t3 := ((hasDerivAt_id E).mul hp).const_mul (μ ^ 2 / 8)
    have := (t1.sub (((t2.add t3).sub (hlog.const_mul (μ ^ 4 / 8))).const_mul (2 * M))).const_mul (M / 2)
    refine this.congr_deriv ?_
    simp only [Pi.pow_apply, Pi.add_apply, id, ← hpdef]
    have hEp : E + p ≠ 0 := by positivity
    have hpn := hp0.ne'
    push_cast
    have hlogd : (1 + E / p) / (E + p) = 1 / p := by field_simp; ring
    have hμ2 : μ ^ 2 = E ^ 2 - p ^ 2 := by linarith
    have hμ4 : μ ^ 4 = (E ^ 2 - p ^ 2) ^ 2 := by rw [← hμ2]; ring
    rw [hlogd, hμ4, hμ2]
    field_simp
    ring
  rw [intervalIntegral.integral_eq_sub_of_hasDerivAt_of_le hX0 hc hd]
  · have hpX : √(X ^ 2 - μ ^ 2) = (M ^ 2 - μ ^ 2) / (2 * M) := by
      rw [show X ^ 2 - μ ^ 2 = ((M ^ 2 - μ ^ 2) / (2 * M)) ^ 2 by rw [hX']; field_simp; ring]
      apply Real.sqrt_sq
      apply div_nonneg _ (by positivity)
      nlinarith
    have hl : X + (M ^ 2 - μ ^ 2) / (2 * M) = M := by rw [hX']; field_simp; ring
    simp only [hH]
    rw [hpX, hl, hX', show μ ^ 2 - μ ^ 2 = 0 by ring, Real.sqrt_zero]
    unfold massFactor
    rw [Real.log_div hμ.ne' hM.ne']
    generalize Real.log M = la
    rw [add_zero]
    generalize Real.log μ = lb
    field_simp
    ring
  · apply Continuous.intervalIntegrable; fun_prop

end PyBBN
