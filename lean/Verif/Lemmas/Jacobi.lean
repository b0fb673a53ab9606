import Verif.Lemmas.Orthopoly
import Mathlib.Algebra.Polynomial.Derivative
import Mathlib.Analysis.SpecialFunctions.Gamma.Beta
import Mathlib.MeasureTheory.Integral.IntervalIntegral.FundThmCalculus
/-!
# Jacobi polynomials from their recursion
-/
namespace PyBBN
open Polynomial

/-- The coefficients of `rec_jacobi` as sequences. -/
noncomputable def jacA (a b : ℝ) (n : ℕ) : ℝ := if n = 0 then jacobiNu a b else jacobiAlpha a b n
noncomputable def jacBt (a b : ℝ) (n : ℕ) : ℝ :=
  if n = 0 then jacobiMu a b else if n = 1 then jacobiB1 a b else jacobiB a b n

section algebra
variable {a b : ℝ}

theorem jacBt_rel (ha : -1 < a) (hb : -1 < b) (n : ℕ) (hn : 0 < n) :
    (2 * n + (a + b) + 1) * (2 * n + (a + b) - 1) * jacBt a b n =
      n * (n + (a + b)) * (1 - ((a - b) / (2 * n + (a + b))) ^ 2) := by
  have hn1 : (1 : ℝ) ≤ n := by exact_mod_cast hn
  unfold jacBt
  rw [if_neg (by omega)]
  by_cases h1 : n = 1
  · subst h1
    rw [if_pos rfl, jacobiB1]
    have h2 : a + b + 2 ≠ 0 := by linarith
    have h3 : a + b + 3 ≠ 0 := by linarith
    have h4 : 2 * ((1 : ℕ) : ℝ) + (a + b) ≠ 0 := by push_cast; linarith
    push_cast at h4 ⊢
    have e1 : 2 * (1 : ℝ) + (a + b) = a + b + 2 := by ring
    have e2 : 2 * (1 : ℝ) + (a + b) + 1 = a + b + 3 := by ring
    rw [e1]
    field_simp
    ring
  · rw [if_neg h1, jacobiB]
    have hn2 : (2 : ℝ) ≤ n := by exact_mod_cast (by omega : 2 ≤ n)
    have h2 : 2 * (n : ℝ) + a + b ≠ 0 := by linarith
    have h3 : 2 * (n : ℝ) + a + b + 1 ≠ 0 := by linarith
    have h4 : 2 * (n : ℝ) + a + b - 1 ≠ 0 := by linarith
    have e1 : 2 * (n : ℝ) + (a + b) = 2 * n + a + b := by ring
    rw [e1]
    field_simp
    ring

theorem jacA_rel (ha : -1 < a) (hb : -1 < b) (n : ℕ) (hn : 0 < n) :
    jacA a b n = -((a - b) * (a + b)) / ((2 * n + (a + b)) * (2 * n + (a + b) + 2)) := by
  unfold jacA jacobiAlpha
  rw [if_neg (by omega)]
  congr 1 <;> ring

/-- Both structure relations: derivative of `P_n` by `P_n, P_{n-1}`, and of `P_{n-1}` by the same. -/
theorem jacobi_structure (ha : -1 < a) (hb : -1 < b) (x : ℝ) (n : ℕ) :
    (1 - x ^ 2) * (derivative (monicP (jacA a b) (jacBt a b) (n + 1))).eval x =
      (n + 1 : ℕ) * ((a - b) / (2 * (n + 1 : ℕ) + (a + b)) - x) * (monicP (jacA a b) (jacBt a b) (n + 1)).eval x +
      (2 * (n + 1 : ℕ) + (a + b) + 1) * jacBt a b (n + 1) * (monicP (jacA a b) (jacBt a b) n).eval x ∧
    (1 - x ^ 2) * (derivative (monicP (jacA a b) (jacBt a b) n)).eval x =
      ((n + 1 : ℕ) + (a + b)) * ((a - b) / (2 * (n + 1 : ℕ) + (a + b)) + x) * (monicP (jacA a b) (jacBt a b) n).eval x -
      (2 * (n + 1 : ℕ) + (a + b) - 1) * (monicP (jacA a b) (jacBt a b) (n + 1)).eval x := by
  induction n with
  | zero =>
    have h2 : 2 * (1 : ℝ) + (a + b) ≠ 0 := by linarith
    have h3 : 2 * (1 : ℝ) + (a + b) + 1 ≠ 0 := by linarith
    have hs : a + b + 2 ≠ 0 := by linarith
    have e0 : jacA a b 0 = -((a - b) / (2 * (1 : ℝ) + (a + b))) := by
      rw [jacA, if_pos rfl, jacobiNu, ← neg_div, show 2 * (1 : ℝ) + (a + b) = a + b + 2 by ring]
      congr 1; ring
    have e1 : (2 * (1 : ℝ) + (a + b) + 1) * jacBt a b 1 = 1 - ((a - b) / (2 * (1 : ℝ) + (a + b))) ^ 2 := by
      rw [jacBt, if_neg (by omega), if_pos rfl, jacobiB1, show 2 * (1 : ℝ) + (a + b) = a + b + 2 by ring]
      have h3' : a + b + 3 ≠ 0 := by linarith
      have h3'' : a + b + 2 + 1 = a + b + 3 := by ring
      rw [h3'']
      field_simp
      ring
    simp only [Nat.zero_add, monicP_one, monicP_zero, derivative_sub, derivative_X, derivative_C, derivative_one, eval_sub,
      eval_X, eval_C, eval_one, eval_zero, Nat.cast_one]
    rw [e0]
    refine ⟨?_, ?_⟩
    · rw [e1]; ring
    · ring
  | succ n ih =>
    obtain ⟨S, T⟩ := ih
    have hrec := monicP_succ (jacA a b) (jacBt a b) n
    have P2 : (monicP (jacA a b) (jacBt a b) (n + 2)).eval x =
        (x - jacA a b (n + 1)) * (monicP (jacA a b) (jacBt a b) (n + 1)).eval x -
          jacBt a b (n + 1) * (monicP (jacA a b) (jacBt a b) n).eval x := by rw [hrec]; simp
    have D2 : (derivative (monicP (jacA a b) (jacBt a b) (n + 2))).eval x =
        (monicP (jacA a b) (jacBt a b) (n + 1)).eval x +
        (x - jacA a b (n + 1)) * (derivative (monicP (jacA a b) (jacBt a b) (n + 1))).eval x -
          jacBt a b (n + 1) * (derivative (monicP (jacA a b) (jacBt a b) n)).eval x := by
      rw [hrec]; simp [derivative_mul]
    rw [show n + 1 + 1 = n + 2 from rfl, P2, D2]
    have hα := jacA_rel ha hb (n + 1) (by omega)
    have hβ := jacBt_rel ha hb (n + 1) (by omega)
    have hβ' := jacBt_rel ha hb (n + 2) (by omega)
    have hn : (0 : ℝ) ≤ n := Nat.cast_nonneg n
    obtain ⟨N, hN⟩ : ∃ N : ℝ, N = (n + 1 : ℕ) := ⟨_, rfl⟩
    have hN2 : ((n + 2 : ℕ) : ℝ) = N + 1 := by rw [hN]; push_cast; ring
    have hN1 : 1 ≤ N := by rw [hN]; push_cast; linarith
    rw [hN2] at hβ' ⊢
    rw [← hN] at S T hα hβ
    generalize (monicP (jacA a b) (jacBt a b) (n + 1)).eval x = P1 at *
    generalize (monicP (jacA a b) (jacBt a b) n).eval x = P0 at *
    generalize (derivative (monicP (jacA a b) (jacBt a b) (n + 1))).eval x = D1 at *
    generalize (derivative (monicP (jacA a b) (jacBt a b) n)).eval x = D0 at *
    generalize jacBt a b (n + 1) = β at *
    generalize jacBt a b (n + 2) = β' at *
    generalize jacA a b (n + 1) = α at *
    obtain ⟨t, ht⟩ : ∃ t : ℝ, t = 2 * N + (a + b) := ⟨_, rfl⟩
    have ht0 : 0 < t := by rw [ht]; linarith
    have e1 : 2 * (N + 1) + (a + b) = t + 2 := by rw [ht]; ring
    rw [e1] at hβ' ⊢
    rw [← ht] at S T hα hβ
    have hs : a + b = t - 2 * N := by rw [ht]; ring
    rw [hs] at hα hβ hβ' T ⊢
    obtain ⟨d, hd⟩ : ∃ d : ℝ, d = a - b := ⟨_, rfl⟩
    rw [← hd] at hα hβ hβ' S T ⊢
    have t1 : t + 1 ≠ 0 := by linarith
    have t2 : t + 2 ≠ 0 := by linarith
    have t0 : t ≠ 0 := ht0.ne'
    have hB : (t - 1) * β = N * (t - N) * (1 - (d / t) ^ 2) / (t + 1) := by
      rw [eq_div_iff t1]; linear_combination hβ
    have hB' : (t + 3) * β' = (N + 1) * (t - N + 1) * (1 - (d / (t + 2)) ^ 2) / (t + 1) := by
      rw [eq_div_iff t1]; linear_combination hβ'
    refine ⟨?_, ?_⟩
    · have k1 : (t + 1) * (x - α) - (N + (t - 2 * N)) * (d / t + x) = -((N + 1) * (d / (t + 2) - x)) := by
        rw [hα]; field_simp; ring
      have k2 : (1 - x ^ 2) + N * (x - α) * (d / t - x) + (t - 1) * β =
          (N + 1) * (d / (t + 2) - x) * (x - α) + (t + 3) * β' := by
        rw [hB, hB', hα]; field_simp; ring
      linear_combination (x - α) * S - β * T + β * P0 * k1 + P1 * k2
    · have k3 : N * (d / t - x) + (t + 1) * (x - α) = (N + 1 + (t - 2 * N)) * (d / (t + 2) + x) := by
        rw [hα]; field_simp; ring
      linear_combination S + P1 * k3

/-- The differential equation of the Jacobi polynomials. -/
theorem jacobi_equation (ha : -1 < a) (hb : -1 < b) (n : ℕ) :
    (1 - X ^ 2) * derivative (derivative (monicP (jacA a b) (jacBt a b) n)) +
      (C (b - a) - C (a + b + 2) * X) * derivative (monicP (jacA a b) (jacBt a b) n) +
      C (n * (n + (a + b) + 1)) * monicP (jacA a b) (jacBt a b) n = 0 := by
  cases n with
  | zero => simp [monicP_zero]
  | succ n =>
    have hpoly : (1 - X ^ 2) * derivative (monicP (jacA a b) (jacBt a b) (n + 1)) =
        C ((n + 1 : ℕ) : ℝ) * (C ((a - b) / (2 * (n + 1 : ℕ) + (a + b))) - X) * monicP (jacA a b) (jacBt a b) (n + 1) +
        C ((2 * (n + 1 : ℕ) + (a + b) + 1) * jacBt a b (n + 1)) * monicP (jacA a b) (jacBt a b) n := by
      refine Polynomial.funext fun x => ?_
      have := (jacobi_structure ha hb x n).1
      simp only [eval_mul, eval_add, eval_sub, eval_one, eval_pow, eval_X, eval_C]
      linear_combination this
    have hder := congrArg derivative hpoly
    have hz : (1 - X ^ 2 : ℝ[X]) ≠ 0 := by
      intro e
      have := congrArg (eval 0) e
      simp at this
    refine mul_left_cancel₀ hz ?_
    rw [mul_zero]
    refine Polynomial.funext fun x => ?_
    have hd' := congrArg (eval x) hder
    simp only [derivative_mul, derivative_sub, derivative_add, derivative_one, derivative_X_pow, derivative_C, derivative_X, eval_mul, eval_add, eval_sub, eval_one, eval_pow, eval_X, eval_C, eval_zero] at hd'
    obtain ⟨S, T⟩ := jacobi_structure ha hb x n
    have hβ := jacBt_rel ha hb (n + 1) (by omega)
    simp only [eval_mul, eval_add, eval_sub, eval_one, eval_pow, eval_X, eval_C, eval_zero]
    have hn : (0 : ℝ) ≤ n := Nat.cast_nonneg n
    obtain ⟨N, hN⟩ : ∃ N : ℝ, N = (n + 1 : ℕ) := ⟨_, rfl⟩
    have hN1 : 1 ≤ N := by rw [hN]; push_cast; linarith
    rw [← hN] at S T hβ hd' ⊢
    generalize (monicP (jacA a b) (jacBt a b) (n + 1)).eval x = P1 at *
    generalize (monicP (jacA a b) (jacBt a b) n).eval x = P0 at *
    generalize (derivative (derivative (monicP (jacA a b) (jacBt a b) (n + 1)))).eval x = DD at *
    generalize (derivative (monicP (jacA a b) (jacBt a b) (n + 1))).eval x = D1 at *
    generalize (derivative (monicP (jacA a b) (jacBt a b) n)).eval x = D0 at *
    generalize jacBt a b (n + 1) = β at *
    obtain ⟨t, ht⟩ : ∃ t : ℝ, t = 2 * N + (a + b) := ⟨_, rfl⟩
    have ht0 : 0 < t := by rw [ht]; linarith
    have t0 : t ≠ 0 := ht0.ne'
    obtain ⟨d, hd⟩ : ∃ d : ℝ, d = a - b := ⟨_, rfl⟩
    obtain ⟨δ, hδ⟩ : ∃ δ : ℝ, δ = d / t := ⟨_, rfl⟩
    have hdt : d = δ * t := by rw [hδ]; field_simp
    have hba : b - a = -d := by rw [hd]; ring
    have hs : a + b = t - 2 * N := by rw [ht]; ring
    rw [← ht, ← hd, ← hδ] at S T hβ hd'
    rw [hs] at T hβ
    rw [hba, hs]
    simp at hd'
    rw [hdt]
    linear_combination (1 - x ^ 2) * hd' + (t + 1) * β * T - ((N + (t - 2 * N)) * (δ + x)) * S - P1 * hβ

end algebra
end PyBBN
