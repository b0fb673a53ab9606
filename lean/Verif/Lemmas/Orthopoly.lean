import Verif.Model.Orthopoly
import Mathlib.Algebra.Polynomial.Div
import Mathlib.Algebra.Polynomial.AlgebraMap
import Mathlib.LinearAlgebra.Matrix.ToLin
import Mathlib.Tactic
/-!
# Orthogonal polynomials and the tridiagonal matrix
-/
namespace PyBBN
open Polynomial Matrix

/-! ## The recursion -/

/-- The monic polynomials of the documentation (orthopoly.py 137, 378):
`P_{k+1}(x) = (x - alpha_k) P_k(x) - beta_k P_{k-1}(x)`. -/
noncomputable def monicP (alpha beta : ℕ → ℝ) : ℕ → ℝ[X]
  | 0 => 1
  | 1 => X - C (alpha 0)
  | k + 2 => (X - C (alpha (k + 1))) * monicP alpha beta (k + 1) - C (beta (k + 1)) * monicP alpha beta k

theorem monicP_zero (alpha beta : ℕ → ℝ) : monicP alpha beta 0 = 1 := by unfold monicP; rfl
theorem monicP_one (alpha beta : ℕ → ℝ) : monicP alpha beta 1 = X - C (alpha 0) := by unfold monicP; rfl
theorem monicP_succ (alpha beta : ℕ → ℝ) (k : ℕ) : monicP alpha beta (k + 2) =
    (X - C (alpha (k + 1))) * monicP alpha beta (k + 1) - C (beta (k + 1)) * monicP alpha beta k := by
  rw [monicP]

theorem monicP_monic (alpha beta : ℕ → ℝ) (k : ℕ) :
    (monicP alpha beta k).Monic ∧ (monicP alpha beta k).natDegree = k := by
  induction k using Nat.strong_induction_on with
  | _ k ih =>
    match k with
    | 0 => rw [monicP_zero]; exact ⟨monic_one, natDegree_one⟩
    | 1 => rw [monicP_one]; exact ⟨monic_X_sub_C _, natDegree_X_sub_C _⟩
    | k + 2 =>
      obtain ⟨m1, d1⟩ := ih (k + 1) (by omega)
      obtain ⟨m0, d0⟩ := ih k (by omega)
      have hm : ((X - C (alpha (k + 1))) * monicP alpha beta (k + 1)).Monic := (monic_X_sub_C _).mul m1
      have hd : ((X - C (alpha (k + 1))) * monicP alpha beta (k + 1)).natDegree = k + 2 := by
        rw [(monic_X_sub_C _).natDegree_mul m1, natDegree_X_sub_C, d1]; omega
      have hlt : (C (beta (k + 1)) * monicP alpha beta k).degree <
          ((X - C (alpha (k + 1))) * monicP alpha beta (k + 1)).degree := by
        have h1 : (C (beta (k + 1)) * monicP alpha beta k).degree ≤ (k : ℕ) := by
          refine degree_le_of_natDegree_le (le_trans (natDegree_C_mul_le _ _) ?_)
          rw [d0]
        rw [degree_eq_natDegree hm.ne_zero, hd]
        exact lt_of_le_of_lt h1 (by exact_mod_cast (by omega : k < k + 2))
      rw [monicP_succ]
      refine ⟨hm.sub_of_left hlt, ?_⟩
      rw [natDegree_sub_eq_left_of_natDegree_lt, hd]
      rw [hd]
      exact lt_of_le_of_lt (natDegree_C_mul_le _ _) (by rw [d0]; omega)

/-- Only `alpha` below and `beta` strictly between 0 and `k` enter. -/
theorem monicP_congr {alpha beta alpha' beta' : ℕ → ℝ} {k : ℕ} (ha : ∀ i, i < k → alpha i = alpha' i)
    (hb : ∀ i, 0 < i → i < k → beta i = beta' i) : monicP alpha beta k = monicP alpha' beta' k := by
  induction k using Nat.strong_induction_on with
  | _ k ih =>
    match k with
    | 0 => rw [monicP_zero, monicP_zero]
    | 1 => rw [monicP_one, monicP_one, ha 0 (by omega)]
    | k + 2 =>
      rw [monicP_succ, monicP_succ, ha (k + 1) (by omega), hb (k + 1) (by omega) (by omega),
        ih (k + 1) (by omega) (fun i h => ha i (by omega)) (fun i h h' => hb i h (by omega)),
        ih k (by omega) (fun i h => ha i (by omega)) (fun i h h' => hb i h (by omega))]

/-- The polynomials of degree up to `m` are spanned by `P_0, .., P_m`. -/
theorem mem_of_monicP (alpha beta : ℕ → ℝ) (S : Submodule ℝ ℝ[X]) (m : ℕ) (h : ∀ j, j ≤ m → monicP alpha beta j ∈ S)
    (f : ℝ[X]) (hf : f.natDegree ≤ m) : f ∈ S := by
  induction m generalizing f with
  | zero =>
    rw [eq_C_of_natDegree_le_zero hf, show C (f.coeff 0) = (f.coeff 0) • (1 : ℝ[X]) by
      rw [smul_eq_C_mul, mul_one]]
    have := h 0 le_rfl
    rw [monicP_zero] at this
    exact S.smul_mem _ this
  | succ m ih =>
    obtain ⟨mo, d⟩ := monicP_monic alpha beta (m + 1)
    have e : f = (f - C (f.coeff (m + 1)) * monicP alpha beta (m + 1)) + f.coeff (m + 1) • monicP alpha beta (m + 1) := by
      rw [smul_eq_C_mul]; ring
    rw [e]
    refine S.add_mem (ih (fun j hj => h j (by omega)) _ ?_) (S.smul_mem _ (h _ le_rfl))
    rw [natDegree_le_iff_coeff_eq_zero]
    intro N hN
    rcases Nat.lt_or_ge (m + 1) N with h' | h'
    · have z : (monicP alpha beta (m + 1)).coeff N = 0 := coeff_eq_zero_of_natDegree_lt (by rw [d]; exact h')
      have z' : f.coeff N = 0 := coeff_eq_zero_of_natDegree_lt (lt_of_le_of_lt hf h')
      rw [coeff_sub, coeff_C_mul, z, z']
      ring
    · have : N = m + 1 := by omega
      subst this
      rw [coeff_sub, coeff_C_mul]
      have : (monicP alpha beta (m + 1)).coeff (m + 1) = 1 := by
        have := mo.coeff_natDegree; rwa [d] at this
      rw [this]; ring

/-! ## The matrix -/

/-- Unit vectors; zero beyond the end. -/
def unitVec (n k : ℕ) : Fin n → ℝ := fun i => if i.val = k then 1 else 0

theorem unitVec_end (n : ℕ) : unitVec n n = 0 := by
  funext i; simp [unitVec, i.isLt.ne]

theorem mulVec_unitVec (n k : ℕ) (hk : k < n) (A : Matrix (Fin n) (Fin n) ℝ) (i : Fin n) :
    (A *ᵥ unitVec n k) i = A i ⟨k, hk⟩ := by
  rw [mulVec, dotProduct, Finset.sum_eq_single ⟨k, hk⟩]
  · simp [unitVec]
  · intro j _ hj
    have : j.val ≠ k := fun e => hj (Fin.ext e)
    simp [unitVec, this]
  · intro h; exact absurd (Finset.mem_univ _) h

theorem jacobiMatrix_zero (n : ℕ) (hn : 0 < n) (alpha beta : ℕ → ℝ) :
    jacobiMatrix n alpha beta *ᵥ unitVec n 0 = √(beta 1) • unitVec n 1 + alpha 0 • unitVec n 0 := by
  funext i
  rw [mulVec_unitVec n 0 hn]
  simp only [jacobiMatrix, unitVec, Pi.add_apply, Pi.smul_apply, smul_eq_mul]
  rcases Nat.eq_zero_or_pos i.val with h | h
  · simp [h]
  · by_cases h1 : i.val = 1
    · simp [h1]
    · have : i.val ≠ 0 := by omega
      simp [this, h1, Ne.symm h1]

theorem jacobiMatrix_succ (n k : ℕ) (hk : k + 1 < n) (alpha beta : ℕ → ℝ) :
    jacobiMatrix n alpha beta *ᵥ unitVec n (k + 1) =
      √(beta (k + 2)) • unitVec n (k + 2) + alpha (k + 1) • unitVec n (k + 1) + √(beta (k + 1)) • unitVec n k := by
  funext i
  rw [mulVec_unitVec n (k + 1) hk]
  simp only [jacobiMatrix, unitVec, Pi.add_apply, Pi.smul_apply, smul_eq_mul]
  by_cases h0 : i.val = k + 1
  · simp [h0]
  · by_cases h1 : i.val = k
    · simp [h1]
    · by_cases h2 : i.val = k + 2
      · simp [h2]
      · have : ¬ k + 1 + 1 = i.val := by omega
        simp [h0, h1, h2, this]

/-- `P_k` of the matrix takes the first unit vector to a multiple of the `k`-th, and `P_n` to zero. -/
theorem monicP_matrix (n : ℕ) (alpha beta : ℕ → ℝ) (hb : ∀ k, 0 < k → k < n → 0 ≤ beta k) (k : ℕ) (hk : k ≤ n) :
    aeval (jacobiMatrix n alpha beta) (monicP alpha beta k) *ᵥ unitVec n 0 =
      (∏ i ∈ Finset.range k, √(beta (i + 1))) • unitVec n k := by
  have key : ∀ k, k < n → aeval (jacobiMatrix n alpha beta) (monicP alpha beta k) *ᵥ unitVec n 0 =
      (∏ i ∈ Finset.range k, √(beta (i + 1))) • unitVec n k ∧
      (aeval (jacobiMatrix n alpha beta) (monicP alpha beta (k + 1)) *ᵥ unitVec n 0 =
      (∏ i ∈ Finset.range (k + 1), √(beta (i + 1))) • unitVec n (k + 1)) := by
    intro k
    induction k with
    | zero =>
      intro h
      refine ⟨by simp [monicP_zero], ?_⟩
      rw [monicP_one, map_sub, aeval_X, aeval_C, Matrix.sub_mulVec, jacobiMatrix_zero n h]
      simp [Algebra.algebraMap_eq_smul_one, Matrix.smul_mulVec]
    | succ k ih =>
      intro h
      obtain ⟨h0, h1⟩ := ih (by omega)
      refine ⟨h1, ?_⟩
      rw [monicP_succ, map_sub, map_mul, map_mul, map_sub, aeval_X, aeval_C, aeval_C, Matrix.sub_mulVec,
        ← Matrix.mulVec_mulVec, ← Matrix.mulVec_mulVec, h1, h0, Matrix.mulVec_smul, Matrix.sub_mulVec,
        jacobiMatrix_succ n k h]
      simp only [Algebra.algebraMap_eq_smul_one, Matrix.smul_mulVec, Matrix.one_mulVec]
      have hs : √(beta (k + 1)) * √(beta (k + 1)) = beta (k + 1) := Real.mul_self_sqrt (hb _ (by omega) (by omega))
      rw [Finset.prod_range_succ _ (k + 1), Finset.prod_range_succ _ k]
      funext i
      simp only [Pi.sub_apply, Pi.smul_apply, Pi.add_apply, smul_eq_mul]
      linear_combination (∏ i ∈ Finset.range k, √(beta (i + 1))) * unitVec n k i * hs
  rcases Nat.lt_or_ge k n with h | h
  · exact (key k h).1
  · have e : k = n := by omega
    subst e
    cases k with
    | zero => funext i; exact i.elim0
    | succ k => exact (key k (by omega)).2

/-- A function of the matrix from eigenvalues and eigenvectors. -/
theorem aeval_eig {n : ℕ} {J V : Matrix (Fin n) (Fin n) ℝ} {x : Fin n → ℝ} (h : J * V = V * diagonal x) (f : ℝ[X]) :
    aeval J f * V = V * diagonal fun i => f.eval (x i) := by
  induction f using Polynomial.induction_on' with
  | add p q hp hq =>
    rw [map_add, add_mul, hp, hq, ← mul_add]
    congr 1
    ext i j
    by_cases hij : i = j
    · subst hij; simp
    · simp [hij]
  | monomial k a =>
    rw [aeval_monomial]
    have hpow : ∀ k : ℕ, J ^ k * V = V * diagonal fun i => x i ^ k := by
      intro k
      induction k with
      | zero => simp
      | succ k ih => rw [pow_succ, Matrix.mul_assoc, h, ← Matrix.mul_assoc, ih, Matrix.mul_assoc, diagonal_mul_diagonal]; rfl
    rw [Matrix.mul_assoc, hpow, Algebra.algebraMap_eq_smul_one, smul_mul_assoc, one_mul]
    ext i j
    simp [Matrix.mul_diagonal, eval_monomial]
    ring

end PyBBN
