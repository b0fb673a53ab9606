import Mathlib.Analysis.SumIntegralExpDecay
import Mathlib.MeasureTheory.Integral.DominatedConvergence
import Mathlib.NumberTheory.ZetaValues
import Mathlib.Analysis.PSeries
import Mathlib.Tactic.FieldSimp
/-!
# Integrals of the Bose and Fermi functions over all momenta
-/
namespace PyBBN

open MeasureTheory Set Nat

theorem integral_pow_exp (k : ℕ) (c : ℝ) (hc : 0 < c) :
    ∫ u in Ioi (0 : ℝ), u ^ k * Real.exp (-(c * u)) = k ! / c ^ (k + 1) := by
  have hk : (0 : ℝ) < (k : ℝ) + 1 := by positivity
  have key := Real.integral_rpow_mul_exp_neg_mul_Ioi hk hc
  simp only [add_sub_cancel_right, Real.rpow_natCast] at key
  rw [key, Real.Gamma_nat_eq_factorial]
  rw [show ((k : ℝ) + 1) = ((k + 1 : ℕ) : ℝ) by push_cast; ring, Real.rpow_natCast, one_div, inv_pow]
  field_simp

theorem integrable_pow_exp (k : ℕ) (c : ℝ) (hc : 0 < c) :
    IntegrableOn (fun u : ℝ => u ^ k * Real.exp (-(c * u))) (Ioi 0) := by
  refine .of_integral_ne_zero ?_
  rw [integral_pow_exp k c hc]
  positivity

theorem bose_series (u : ℝ) (hu : 0 < u) :
    ∑' n : ℕ, Real.exp (-(((n : ℝ) + 1) * u)) = 1 / (Real.exp u - 1) := by
  have h1 : Real.exp (-u) < 1 := Real.exp_lt_one_iff.mpr (by linarith)
  have e : ∀ n : ℕ, Real.exp (-(((n : ℝ) + 1) * u)) = Real.exp (-u) * Real.exp (-u) ^ n := by
    intro n
    rw [← Real.exp_nat_mul, ← Real.exp_add]
    congr 1; ring
  simp only [e]
  rw [tsum_mul_left, tsum_geometric_of_lt_one (Real.exp_pos _).le h1]
  have h2 := Real.one_lt_exp_iff.mpr hu
  rw [Real.exp_neg]
  have : Real.exp u - 1 ≠ 0 := by linarith
  have h3 : 1 - (Real.exp u)⁻¹ ≠ 0 := by
    have := inv_lt_one_of_one_lt₀ h2
    linarith
  field_simp

/-- `∑ 1/(n+1)^(k+1)`. -/
noncomputable def zetaSum (k : ℕ) : ℝ := ∑' n : ℕ, 1 / ((n : ℝ) + 1) ^ (k + 1)

theorem zeta_summable (k : ℕ) (hk : 1 ≤ k) : Summable fun n : ℕ => 1 / ((n : ℝ) + 1) ^ (k + 1) := by
  have := (summable_nat_add_iff (f := fun n : ℕ => 1 / (n : ℝ) ^ (k + 1)) 1).mpr
    (Real.summable_one_div_nat_pow.mpr (by omega))
  simpa using this

theorem zetaSum_pos (k : ℕ) (hk : 1 ≤ k) : 0 < zetaSum k :=
  (zeta_summable k hk).tsum_pos (fun n => by positivity) 0 (by norm_num)

/-- `∫₀^∞ u^k/(e^u - 1) du = k! ζ(k+1)`. -/
theorem bose_integral (k : ℕ) (hk : 1 ≤ k) :
    ∫ u in Ioi (0 : ℝ), u ^ k * (1 / (Real.exp u - 1)) = k ! * zetaSum k := by
  have hF := fun n : ℕ => integrable_pow_exp k ((n : ℝ) + 1) (by positivity)
  have hval := fun n : ℕ => integral_pow_exp k ((n : ℝ) + 1) (by positivity)
  have hnorm : ∀ n : ℕ, ∫ u in Ioi (0 : ℝ), ‖u ^ k * Real.exp (-(((n : ℝ) + 1) * u))‖ =
      k ! * (1 / ((n : ℝ) + 1) ^ (k + 1)) := by
    intro n
    rw [mul_one_div, ← hval n]
    refine setIntegral_congr_fun measurableSet_Ioi fun u hu => ?_
    rw [mem_Ioi] at hu
    rw [Real.norm_of_nonneg (by positivity)]
  have hs := hasSum_integral_of_summable_integral_norm (μ := volume.restrict (Ioi (0 : ℝ)))
    (F := fun (n : ℕ) (u : ℝ) => u ^ k * Real.exp (-(((n : ℝ) + 1) * u))) hF
    (by simp only [hnorm]; exact (zeta_summable k hk).mul_left _)
  have h1 := hs.tsum_eq
  simp only [hval] at h1
  rw [show (k ! : ℝ) * zetaSum k = ∑' n : ℕ, (k ! : ℝ) / ((n : ℝ) + 1) ^ (k + 1) by
    unfold zetaSum; rw [← tsum_mul_left]; simp only [mul_one_div], h1]
  refine setIntegral_congr_fun measurableSet_Ioi fun u hu => ?_
  rw [tsum_mul_left, bose_series u hu]

theorem bose_integrable (k : ℕ) (hk : 1 ≤ k) :
    IntegrableOn (fun u : ℝ => u ^ k * (1 / (Real.exp u - 1))) (Ioi 0) := by
  refine .of_integral_ne_zero ?_
  rw [bose_integral k hk]
  have := zetaSum_pos k hk
  positivity

/-- `∫₀^∞ u^k/(e^u + 1) du = (1 - 2^{-k}) k! ζ(k+1)`. -/
theorem fermi_integral (k : ℕ) (hk : 1 ≤ k) :
    ∫ u in Ioi (0 : ℝ), u ^ k * (1 / (Real.exp u + 1)) = (1 - 1 / 2 ^ k) * (k ! * zetaSum k) := by
  have hB := bose_integrable k hk
  have h2 := (integrableOn_Ioi_comp_mul_left_iff
    (fun u : ℝ => u ^ k * (1 / (Real.exp u - 1))) 0 (a := 2) two_pos).mpr (by simpa using hB)
  have i2 := integral_comp_mul_left_Ioi (fun u : ℝ => u ^ k * (1 / (Real.exp u - 1))) 0 (b := 2) two_pos
  rw [mul_zero, bose_integral k hk] at i2
  have e : ∫ u in Ioi (0 : ℝ), u ^ k * (1 / (Real.exp u + 1)) =
      ∫ u in Ioi (0 : ℝ), (u ^ k * (1 / (Real.exp u - 1)) -
        2 / 2 ^ k * ((2 * u) ^ k * (1 / (Real.exp (2 * u) - 1)))) := by
    refine setIntegral_congr_fun measurableSet_Ioi fun u hu => ?_
    have h1 := Real.one_lt_exp_iff.mpr (mem_Ioi.mp hu)
    rw [show (2 * u) = u + u by ring, Real.exp_add, show u + u = 2 * u by ring, mul_pow]
    have n1 : Real.exp u - 1 ≠ 0 := by linarith
    have n2 : Real.exp u + 1 ≠ 0 := by linarith
    have n3 : Real.exp u * Real.exp u - 1 ≠ 0 := by nlinarith
    rw [show Real.exp u * Real.exp u - 1 = (Real.exp u - 1) * (Real.exp u + 1) by ring]
    field_simp
    ring
  rw [e, integral_sub hB (h2.const_mul _), integral_const_mul, i2, bose_integral k hk]
  simp only [smul_eq_mul]
  field_simp

theorem zetaSum_three : zetaSum 3 = Real.pi ^ 4 / 90 := by
  have h := hasSum_zeta_four
  rw [← hasSum_nat_add_iff' 1] at h
  have := h.tsum_eq
  unfold zetaSum
  simpa using this

/-- Bounds for `ζ(3)`. -/
theorem zetaSum_two_bounds : 1.2 < zetaSum 2 ∧ zetaSum 2 < 1.203 := by
  have hs := zeta_summable 2 (by norm_num)
  have hsplit := hs.sum_add_tsum_nat_add 20
  unfold zetaSum
  constructor
  · have : ∑ i ∈ Finset.range 20, 1 / ((i : ℝ) + 1) ^ (2 + 1) ≤ ∑' n : ℕ, 1 / ((n : ℝ) + 1) ^ (2 + 1) :=
      hs.sum_le_tsum _ fun i _ => by positivity
    refine lt_of_lt_of_le ?_ this
    norm_num [Finset.sum_range_succ]
  · have tail : ∑' i : ℕ, 1 / (((i + 20 : ℕ) : ℝ) + 1) ^ (2 + 1) ≤ 1 / (2 * 20 * 21) := by
      have tele : ∀ n : ℕ, ∑ i ∈ Finset.range n, 1 / (((i + 20 : ℕ) : ℝ) + 1) ^ (2 + 1) ≤
          1 / (2 * 20 * 21) - 1 / (2 * ((n : ℝ) + 20) * ((n : ℝ) + 21)) := by
        intro n
        induction n with
        | zero => norm_num
        | succ n ih =>
          rw [Finset.sum_range_succ]
          have : 1 / (((n + 20 : ℕ) : ℝ) + 1) ^ (2 + 1) ≤
              1 / (2 * ((n : ℝ) + 20) * ((n : ℝ) + 21)) -
              1 / (2 * (((n + 1 : ℕ) : ℝ) + 20) * (((n + 1 : ℕ) : ℝ) + 21)) := by
            push_cast
            have hn : (0 : ℝ) ≤ n := Nat.cast_nonneg n
            have e : 1 / (2 * ((n : ℝ) + 20) * ((n : ℝ) + 21)) -
                1 / (2 * ((n : ℝ) + 1 + 20) * ((n : ℝ) + 1 + 21)) =
                1 / (((n : ℝ) + 20) * ((n : ℝ) + 21) * ((n : ℝ) + 22)) := by
              field_simp; ring
            rw [e]
            refine one_div_le_one_div_of_le (by positivity) ?_
            nlinarith
          linarith
      refine Real.tsum_le_of_sum_range_le (fun i => by positivity) fun n => (tele n).trans ?_
      have : 0 ≤ 1 / (2 * ((n : ℝ) + 20) * ((n : ℝ) + 21)) := by positivity
      linarith
    rw [← hsplit]
    refine lt_of_le_of_lt (add_le_add le_rfl tail) ?_
    norm_num [Finset.sum_range_succ]

end PyBBN
