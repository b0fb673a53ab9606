import Verif.Lemmas.Orthopoly
import Verif.Props.Integrators
import Mathlib.Analysis.Matrix.Spectrum
/-!
# C129: quadrature rules from recursion coefficients
-/
namespace PyBBN
open Polynomial Matrix

/-! ## Specification -/

/-- A linear functional on polynomials (such as integration with a weight) the orthogonal polynomials of which, up to
order `N`, have the recursion coefficients `alpha`, `beta`; `beta_0` is the value at 1. -/
def HasRecursion (L : ℝ[X] →ₗ[ℝ] ℝ) (alpha beta : ℕ → ℝ) (N : ℕ) : Prop :=
  L 1 = beta 0 ∧ ∀ j k, j < k → k ≤ N → L (monicP alpha beta j * monicP alpha beta k) = 0

/-- The functional is positive on the polynomials which are not negative between `lo` and `hi`. -/
def PositiveOn (L : ℝ[X] →ₗ[ℝ] ℝ) (lo hi : ℝ) : Prop :=
  ∀ f : ℝ[X], (∀ x, lo < x → x < hi → 0 ≤ f.eval x) → f ≠ 0 → 0 < L f

/-- The rule gives the value of the functional for all polynomials up to degree `d`. -/
def ExactTo (rule : Rule) (L : ℝ[X] →ₗ[ℝ] ℝ) (d : ℕ) : Prop :=
  ∀ f : ℝ[X], f.natDegree ≤ d → (rule.map fun xw => f.eval xw.1 * xw.2).sum = L f

/-- What `eig_banded` is documented to return: an orthogonal matrix of eigenvectors. -/
def EigContract (eig : EigBanded) : Prop :=
  ∀ (n : ℕ) (J : Matrix (Fin n) (Fin n) ℝ), J.IsSymm →
    (eig n J).2ᵀ * (eig n J).2 = 1 ∧ J * (eig n J).2 = (eig n J).2 * diagonal (eig n J).1

/-- What the solvers are documented to return. -/
def SolveContract (solve : LinSolve) : Prop :=
  ∀ (n : ℕ) (A : Matrix (Fin n) (Fin n) ℝ) (f v : Fin n → ℝ), solve n A f = some v → A *ᵥ v = f

/-! ## Exactness -/

theorem HasRecursion.orth {L : ℝ[X] →ₗ[ℝ] ℝ} {alpha beta : ℕ → ℝ} {N : ℕ} (h : HasRecursion L alpha beta N) {k : ℕ}
    (hk : k ≤ N) {q : ℝ[X]} (hq : q.natDegree < k) : L (q * monicP alpha beta k) = 0 := by
  have := mem_of_monicP alpha beta (LinearMap.ker (L ∘ₗ LinearMap.mulRight ℝ (monicP alpha beta k))) (k - 1)
    (fun j hj => by
      rw [LinearMap.mem_ker, LinearMap.comp_apply, LinearMap.mulRight_apply]
      exact h.2 j k (by omega) hk) q (by omega)
  rwa [LinearMap.mem_ker, LinearMap.comp_apply, LinearMap.mulRight_apply] at this

theorem jacobiMatrix_symm (n : ℕ) (alpha beta : ℕ → ℝ) : (jacobiMatrix n alpha beta).IsSymm := by
  ext i j
  simp only [Matrix.transpose_apply, jacobiMatrix]
  by_cases h : i.val = j.val
  · simp [h]
  · have h' : ¬ j.val = i.val := fun e => h e.symm
    simp only [h, h', if_false]
    by_cases h1 : i.val + 1 = j.val
    · have : ¬ j.val + 1 = i.val := by omega
      simp [h1, this]
    · simp [h1]

theorem rule_sum {n : ℕ} {J V : Matrix (Fin (n + 1)) (Fin (n + 1)) ℝ} {x : Fin (n + 1) → ℝ} (ho : Vᵀ * V = 1)
    (h : J * V = V * diagonal x) (f : ℝ[X]) :
    ∑ i, f.eval (x i) * V 0 i ^ 2 = (aeval J f *ᵥ unitVec (n + 1) 0) 0 := by
  have ho' : V * Vᵀ = 1 := mul_eq_one_comm.mp ho
  have e : aeval J f = V * diagonal (fun i => f.eval (x i)) * Vᵀ := by
    rw [← aeval_eig h, Matrix.mul_assoc, ho', Matrix.mul_one]
  rw [mulVec_unitVec (n + 1) 0 (by omega), e, Matrix.mul_apply]
  refine Finset.sum_congr rfl fun i _ => ?_
  rw [Matrix.mul_diagonal, Matrix.transpose_apply]
  change _ = V 0 i * eval (x i) f * V 0 i
  ring

/-- The rule of the matrix is exact as far as the highest of its polynomials is orthogonal. -/
theorem rule_exact {n : ℕ} {alpha beta : ℕ → ℝ} (hb : ∀ k, 0 < k → k < n + 1 → 0 ≤ beta k) {L : ℝ[X] →ₗ[ℝ] ℝ}
    (h1 : L 1 = beta 0) (horth : ∀ k, 0 < k → k ≤ n → L (monicP alpha beta k) = 0) {d : ℕ}
    (hd : ∀ q : ℝ[X], q.natDegree < d → L (q * monicP alpha beta (n + 1)) = 0)
    {V : Matrix (Fin (n + 1)) (Fin (n + 1)) ℝ} {x : Fin (n + 1) → ℝ} (ho : Vᵀ * V = 1)
    (h : jacobiMatrix (n + 1) alpha beta * V = V * diagonal x) (f : ℝ[X]) (hf : f.natDegree ≤ n + d) :
    ∑ i, f.eval (x i) * (beta 0 * V 0 i ^ 2) = L f := by
  set J := jacobiMatrix (n + 1) alpha beta with hJ
  set p := monicP alpha beta (n + 1) with hp
  obtain ⟨mo, dp⟩ := monicP_monic alpha beta (n + 1)
  rw [← hp] at mo dp
  have pz : aeval J p *ᵥ unitVec (n + 1) 0 = 0 := by
    rw [monicP_matrix (n + 1) alpha beta hb (n + 1) le_rfl, unitVec_end, smul_zero]
  -- up to degree n
  have low : ∀ r : ℝ[X], r.natDegree ≤ n → L r = beta 0 * (aeval J r *ᵥ unitVec (n + 1) 0) 0 := by
    let M : ℝ[X] →ₗ[ℝ] ℝ :=
      { toFun := fun r => beta 0 * (aeval J r *ᵥ unitVec (n + 1) 0) 0
        map_add' := fun r s => by rw [map_add, Matrix.add_mulVec, Pi.add_apply]; ring
        map_smul' := fun c r => by
          rw [map_smul, Matrix.smul_mulVec, Pi.smul_apply, smul_eq_mul, RingHom.id_apply, smul_eq_mul]; ring }
    intro r hr
    have := mem_of_monicP alpha beta (LinearMap.eqLocus L M) n (fun j hj => by
      rw [LinearMap.mem_eqLocus]
      change _ = beta 0 * (aeval J (monicP alpha beta j) *ᵥ unitVec (n + 1) 0) 0
      rcases Nat.eq_zero_or_pos j with rfl | hj0
      · rw [monicP_zero, h1]; simp [unitVec]
      · rw [horth j hj0 hj, monicP_matrix (n + 1) alpha beta hb j (by omega)]
        have : ¬ 0 = j := by omega
        simp [unitVec, this]) r hr
    exact this
  have sum : ∑ i, f.eval (x i) * (beta 0 * V 0 i ^ 2) = beta 0 * (aeval J f *ᵥ unitVec (n + 1) 0) 0 := by
    rw [← rule_sum ho h, Finset.mul_sum]
    exact Finset.sum_congr rfl fun i _ => by ring
  rw [sum]
  have ef : f = f %ₘ p + p * (f /ₘ p) := (modByMonic_add_div f p).symm
  have hr : (f %ₘ p).natDegree ≤ n := by
    have := natDegree_modByMonic_lt f mo (fun e => by rw [e, natDegree_one] at dp; omega)
    omega
  have hq : L (f /ₘ p * p) = 0 := by
    by_cases h0 : f.natDegree < n + 1
    · have : f /ₘ p = 0 := by
        rw [divByMonic_eq_zero_iff mo]
        by_cases hz : f = 0
        · rw [hz, degree_zero, degree_eq_natDegree mo.ne_zero]; exact WithBot.bot_lt_coe _
        · rw [degree_eq_natDegree hz, degree_eq_natDegree mo.ne_zero, dp]; exact_mod_cast h0
      rw [this, zero_mul, map_zero]
    · refine hd _ ?_
      rw [natDegree_divByMonic f mo, dp]
      omega
  have hz : aeval J (p * (f /ₘ p)) *ᵥ unitVec (n + 1) 0 = 0 := by
    rw [mul_comm p, map_mul, ← Matrix.mulVec_mulVec, pz, Matrix.mulVec_zero]
  conv_rhs => rw [ef]
  conv_lhs => rw [ef]
  rw [map_add, map_add, Matrix.add_mulVec, hz, add_zero, low _ hr, mul_comm p, hq, add_zero]

/-- The nodes are the roots of the last polynomial. -/
theorem rule_roots {n : ℕ} {alpha beta : ℕ → ℝ} (hb : ∀ k, 0 < k → k < n + 1 → 0 < beta k)
    {V : Matrix (Fin (n + 1)) (Fin (n + 1)) ℝ} {x : Fin (n + 1) → ℝ} (ho : Vᵀ * V = 1)
    (h : jacobiMatrix (n + 1) alpha beta * V = V * diagonal x) (i : Fin (n + 1)) :
    (monicP alpha beta (n + 1)).eval (x i) = 0 := by
  set J := jacobiMatrix (n + 1) alpha beta with hJ
  set p := monicP alpha beta (n + 1) with hp
  have hb' : ∀ k, 0 < k → k < n + 1 → 0 ≤ beta k := fun k h1 h2 => (hb k h1 h2).le
  have pz : aeval J p *ᵥ unitVec (n + 1) 0 = 0 := by
    rw [monicP_matrix (n + 1) alpha beta hb' (n + 1) le_rfl, unitVec_end, smul_zero]
  have pJ : aeval J p = 0 := by
    ext i ⟨k, hk⟩
    have e := monicP_matrix (n + 1) alpha beta hb' k (by omega)
    have hc : (∏ i ∈ Finset.range k, √(beta (i + 1))) ≠ 0 := by
      rw [Finset.prod_ne_zero_iff]
      intro j hj
      exact (Real.sqrt_pos.mpr (hb _ (by omega) (by have := Finset.mem_range.mp hj; omega))).ne'
    have e2 : aeval J p *ᵥ ((∏ i ∈ Finset.range k, √(beta (i + 1))) • unitVec (n + 1) k) = 0 := by
      rw [← e, Matrix.mulVec_mulVec, ← map_mul, mul_comm, map_mul, ← Matrix.mulVec_mulVec, pz, Matrix.mulVec_zero]
    rw [Matrix.mulVec_smul] at e2
    have e3 := congrFun ((smul_eq_zero.mp e2).resolve_left hc) i
    rw [mulVec_unitVec (n + 1) k hk] at e3
    exact e3
  have e := aeval_eig h p
  rw [pJ, zero_mul] at e
  have e' : diagonal (fun i => p.eval (x i)) = 0 := by
    have := congrArg (Vᵀ * ·) e
    simp only [Matrix.mul_zero, ← Matrix.mul_assoc, ho, Matrix.one_mul] at this
    exact this.symm
  have := congrFun (congrFun e' i) i
  simpa using this

/-! ## Given nodes -/

theorem node_of_eigenvector {n : ℕ} {J V : Matrix (Fin n) (Fin n) ℝ} {x : Fin n → ℝ} (ho : Vᵀ * V = 1)
    (h : J * V = V * diagonal x) {v : Fin n → ℝ} (hv : v ≠ 0) {c : ℝ} (e : J *ᵥ v = c • v) : ∃ i, x i = c := by
  have ho' : V * Vᵀ = 1 := mul_eq_one_comm.mp ho
  have hu : Vᵀ *ᵥ v ≠ 0 := by
    intro z
    apply hv
    have := congrArg (V *ᵥ ·) z
    simpa [Matrix.mulVec_mulVec, ho'] using this
  have hD : diagonal x = Vᵀ * J * V := by
    rw [Matrix.mul_assoc, h, ← Matrix.mul_assoc, ho, Matrix.one_mul]
  have hE : diagonal x *ᵥ (Vᵀ *ᵥ v) = c • (Vᵀ *ᵥ v) := by
    rw [hD, Matrix.mulVec_mulVec, Matrix.mul_assoc, ho', Matrix.mul_one, ← Matrix.mulVec_mulVec, e, Matrix.mulVec_smul]
  obtain ⟨i, hi⟩ := Function.ne_iff.mp hu
  refine ⟨i, ?_⟩
  have := congrFun hE i
  rw [Matrix.mulVec_diagonal, Pi.smul_apply, smul_eq_mul] at this
  exact mul_right_cancel₀ hi this

/-- If the last coefficients are chosen such that `alpha - beta g = c`, with `g` the last entry of the solution for the
unit vector, `c` is an eigenvalue. -/
theorem node_given {m : ℕ} {alpha beta alpha' beta' : ℕ → ℝ} {c : ℝ} (ha : ∀ k, k < m + 1 → alpha' k = alpha k)
    (hb : ∀ k, k < m + 1 → beta' k = beta k) (hpos : 0 ≤ beta' (m + 1)) {g : Fin (m + 1) → ℝ}
    (hg : jacobiMatrix (m + 1) (fun k => alpha k - c) beta *ᵥ g = lastVector (m + 1) 1)
    (hc : alpha' (m + 1) - beta' (m + 1) * g (Fin.last m) = c) :
    ∃ v : Fin (m + 2) → ℝ, v ≠ 0 ∧ jacobiMatrix (m + 2) alpha' beta' *ᵥ v = c • v := by
  set s := √(beta' (m + 1)) with hs
  have ss : s * s = beta' (m + 1) := Real.mul_self_sqrt hpos
  refine ⟨Fin.snoc (α := fun _ => ℝ) (fun i => -s * g i) 1, ?_, ?_⟩
  · intro z
    have := congrFun z (Fin.last (m + 1))
    simp at this
  funext i
  rw [Matrix.mulVec, dotProduct, Fin.sum_univ_castSucc, Pi.smul_apply, smul_eq_mul]
  simp only [Fin.snoc_castSucc, Fin.snoc_last]
  induction i using Fin.lastCases with
  | last =>
    have hsum : ∑ j : Fin (m + 1), jacobiMatrix (m + 2) alpha' beta' (Fin.last (m + 1)) j.castSucc * (-s * g j) =
        s * (-s * g (Fin.last m)) := by
      rw [Finset.sum_eq_single (Fin.last m)]
      · congr 1
        simp [jacobiMatrix, hs]
        intro h; omega
      · intro j _ hj
        have h1 : ¬ j.val = m := fun e => hj (Fin.ext e)
        have h2 := j.isLt
        have h3 : ¬ (m + 1 = j.val) := by omega
        have h4 : ¬ (m + 1 + 1 = j.val) := by omega
        have h5 : ¬ (j.val + 1 = m + 1) := by omega
        simp [jacobiMatrix, h1, h3, h4]
      · intro h; exact absurd (Finset.mem_univ _) h
    rw [hsum]
    have : jacobiMatrix (m + 2) alpha' beta' (Fin.last (m + 1)) (Fin.last (m + 1)) = alpha' (m + 1) := by
      simp [jacobiMatrix]
    rw [this]
    simp only [Fin.snoc_last]
    linear_combination hc - g (Fin.last m) * ss
  | cast i =>
    have hgi := congrFun hg i
    rw [Matrix.mulVec, dotProduct] at hgi
    have he : ∀ j : Fin (m + 1), jacobiMatrix (m + 2) alpha' beta' i.castSucc j.castSucc =
        jacobiMatrix (m + 1) (fun k => alpha k - c) beta i j + if i = j then c else 0 := by
      intro j
      have hi := i.isLt
      have hj := j.isLt
      simp only [jacobiMatrix, Fin.val_castSucc]
      by_cases h0 : i.val = j.val
      · have : i = j := Fin.ext h0
        subst this
        simp [ha i.val hi]
      · have h0' : i ≠ j := fun e => h0 (by rw [e])
        simp only [h0, h0', if_false, hb _ hi, hb _ hj, add_zero]
    have hl : jacobiMatrix (m + 2) alpha' beta' i.castSucc (Fin.last (m + 1)) = lastVector (m + 1) s i := by
      have hi := i.isLt
      simp only [jacobiMatrix, lastVector, Fin.val_castSucc, Fin.val_last]
      have h1 : ¬ i.val = m + 1 := by omega
      have h2 : ¬ m + 1 + 1 = i.val := by omega
      simp only [h1, h2, if_false, hs]
    simp only [he, hl, add_mul, Finset.sum_add_distrib, ite_mul, zero_mul, Finset.sum_ite_eq, Finset.mem_univ, if_true,
      Fin.snoc_castSucc]
    have hsum : ∑ j : Fin (m + 1), jacobiMatrix (m + 1) (fun k => alpha k - c) beta i j * (-s * g j) =
        -s * lastVector (m + 1) 1 i := by
      rw [← hgi, Finset.mul_sum]
      exact Finset.sum_congr rfl fun j _ => by ring
    rw [hsum]
    simp only [lastVector]
    split_ifs <;> ring

/-! ## The functions -/

theorem gauss_ok {eig : EigBanded} (heig : EigContract eig) {n : ℕ} {alpha beta : List ℝ} (ha : alpha.length = n + 1)
    (hb : beta.length = n + 1) : ∃ (x : Fin (n + 1) → ℝ) (V : Matrix (Fin (n + 1)) (Fin (n + 1)) ℝ), Vᵀ * V = 1 ∧
      jacobiMatrix (n + 1) (arrayAt alpha) (arrayAt beta) * V = V * diagonal x ∧
      gauss eig alpha beta = .ok (List.ofFn fun i => (x i, arrayAt beta 0 * V 0 i ^ 2)) := by
  match beta, hb with
  | b0 :: bs, hb =>
    simp only [List.length_cons, Nat.add_right_cancel_iff] at hb
    subst hb
    obtain ⟨h1, h2⟩ := heig _ _ (jacobiMatrix_symm (bs.length + 1) (arrayAt alpha) (arrayAt (b0 :: bs)))
    refine ⟨_, _, h1, h2, ?_⟩
    simp only [gauss, ha, if_true]
    rfl

theorem sum_ofFn_rule {n : ℕ} (x w : Fin n → ℝ) (f : ℝ[X]) :
    ((List.ofFn fun i => (x i, w i)).map fun xw => f.eval xw.1 * xw.2).sum = ∑ i, f.eval (x i) * w i := by
  rw [List.map_ofFn, List.sum_ofFn]
  rfl

/-- **C129 (`gauss`).** From the recursion coefficients of a functional, `gauss` returns a rule of `n` points which gives the
functional exactly for all polynomials up to degree `2 n - 1`; the nodes are roots of the `n`-th orthogonal polynomial. -/
theorem C129_gauss (eig : EigBanded) (heig : EigContract eig) (n : ℕ) (alpha beta : List ℝ) (ha : alpha.length = n + 1)
    (hb : beta.length = n + 1) (hpos : ∀ k, 0 < k → k < n + 1 → 0 < arrayAt beta k) (L : ℝ[X] →ₗ[ℝ] ℝ)
    (hL : HasRecursion L (arrayAt alpha) (arrayAt beta) (n + 1)) :
    ∃ rule, gauss eig alpha beta = .ok rule ∧ rule.length = n + 1 ∧ ExactTo rule L (2 * n + 1) ∧
      ∀ xw ∈ rule, (monicP (arrayAt alpha) (arrayAt beta) (n + 1)).eval xw.1 = 0 := by
  obtain ⟨x, V, ho, h, e⟩ := gauss_ok heig ha hb
  refine ⟨_, e, by simp, ?_, ?_⟩
  · intro f hf
    rw [sum_ofFn_rule]
    refine rule_exact (d := n + 1) (fun k h1 h2 => (hpos k h1 h2).le) hL.1 (fun k h1 h2 => ?_) (fun q hq => ?_) ho h f (by omega)
    · have := hL.2 0 k h1 (by omega)
      rwa [monicP_zero, one_mul] at this
    · exact hL.orth le_rfl hq
  · intro xw hx
    obtain ⟨i, rfl⟩ := List.mem_ofFn.mp hx
    exact rule_roots hpos ho h i

theorem arrayAt_setLast {l : List ℝ} {v : ℝ} {k : ℕ} {m : ℕ} (hl : l.length = m + 1) :
    arrayAt (setLast l v) k = if k = m then v else arrayAt l k := by
  unfold arrayAt setLast
  rw [hl, Nat.add_sub_cancel]
  by_cases h : k = m
  · subst h
    simp [List.getD_eq_getElem?_getD, hl]
  · simp [List.getD_eq_getElem?_getD, h, List.getElem?_set, Ne.symm h]

/-- The polynomial before which the coefficients are changed. -/
theorem monicP_modified (alpha beta : List ℝ) (m : ℕ) (ha : alpha.length = m + 2) (hb : beta.length = m + 2) (va vb : ℝ) :
    (∀ k, k ≤ m + 1 → monicP (arrayAt (setLast alpha va)) (arrayAt (setLast beta vb)) k =
      monicP (arrayAt alpha) (arrayAt beta) k) ∧
    monicP (arrayAt (setLast alpha va)) (arrayAt (setLast beta vb)) (m + 2) =
      monicP (arrayAt alpha) (arrayAt beta) (m + 2) +
      C (arrayAt alpha (m + 1) - va) * monicP (arrayAt alpha) (arrayAt beta) (m + 1) +
      C (arrayAt beta (m + 1) - vb) * monicP (arrayAt alpha) (arrayAt beta) m := by
  have h1 : ∀ k, k ≤ m + 1 → monicP (arrayAt (setLast alpha va)) (arrayAt (setLast beta vb)) k =
      monicP (arrayAt alpha) (arrayAt beta) k := by
    intro k hk
    refine monicP_congr (fun i hi => ?_) (fun i _ hi => ?_)
    · rw [arrayAt_setLast ha, if_neg (by omega)]
    · rw [arrayAt_setLast hb, if_neg (by omega)]
  refine ⟨h1, ?_⟩
  rw [monicP_succ, monicP_succ, h1 (m + 1) le_rfl, h1 m (by omega), arrayAt_setLast ha, arrayAt_setLast hb, if_pos rfl,
    if_pos rfl, C_sub, C_sub]
  ring

theorem setLast_length (l : List ℝ) (v : ℝ) : (setLast l v).length = l.length := by simp [setLast]

theorem setLast_self {l : List ℝ} {m : ℕ} (hl : l.length = m + 1) : setLast l (arrayAt l m) = l := by
  unfold setLast arrayAt
  rw [hl, Nat.add_sub_cancel]
  apply List.ext_getElem?
  intro k
  by_cases h : m = k
  · subst h
    simp [List.getD_eq_getElem?_getD, hl]
  · simp [List.getElem?_set, h]

/-- **C129 (`radau`).** With `n ≥ 2` points, the rule has the prescribed node and is exact up to degree `2 n - 2`.  The array
`alpha` of the caller has afterwards another last entry: a following call of `gauss` with the same arrays returns the same
rule, not that of `gauss` before. -/
theorem C129_radau (eig : EigBanded) (heig : EigContract eig) (solve : LinSolve) (hsolve : SolveContract solve) (m : ℕ)
    (alpha beta : List ℝ) (ha : alpha.length = m + 2) (hb : beta.length = m + 2)
    (hpos : ∀ k, 0 < k → k < m + 2 → 0 < arrayAt beta k) (L : ℝ[X] →ₗ[ℝ] ℝ)
    (hL : HasRecursion L (arrayAt alpha) (arrayAt beta) (m + 2)) (xr : ℝ) (out : (List ℝ × List ℝ) × Rule)
    (h : radau eig solve alpha beta xr = .ok out) :
    out.2.length = m + 2 ∧ ExactTo out.2 L (2 * (m + 2) - 2) ∧ (∃ w, (xr, w) ∈ out.2) ∧
      out.1.2 = beta ∧ gauss eig out.1.1 out.1.2 = .ok out.2 ∧
      (out.1.1 = alpha ↔ (monicP (arrayAt alpha) (arrayAt beta) (m + 2)).eval xr = 0) := by
  unfold radau at h
  rw [ha] at h
  simp only [hb, if_true] at h
  cases hs : solve (m + 1) (jacobiMatrix (m + 1) (fun k => arrayAt alpha k - xr) (arrayAt beta))
      (lastVector (m + 1) (arrayAt beta (m + 1))) with
  | none => rw [hs] at h; cases h
  | some delta =>
    rw [hs] at h
    simp only at h
    have hd := hsolve _ _ _ _ hs
    obtain ⟨va, hva⟩ : ∃ va, va = xr + delta (Fin.last m) := ⟨_, rfl⟩
    rw [← hva] at h
    obtain ⟨x, V, ho, hJ, e⟩ := gauss_ok heig (n := m + 1) (alpha := setLast alpha va) (beta := beta)
      (by rw [setLast_length, ha]) hb
    rw [e] at h
    simp only [Except.ok.injEq] at h
    subst h
    obtain ⟨q1, q2⟩ := monicP_modified alpha beta m ha hb va (arrayAt beta (m + 1))
    rw [setLast_self hb] at q1 q2
    have hlast := hpos (m + 1) (by omega) (by omega)
    have hg : jacobiMatrix (m + 1) (fun k => arrayAt alpha k - xr) (arrayAt beta) *ᵥ
        ((arrayAt beta (m + 1))⁻¹ • delta) = lastVector (m + 1) 1 := by
      rw [Matrix.mulVec_smul, hd]
      funext i
      simp only [lastVector, Pi.smul_apply, smul_eq_mul]
      split_ifs
      · field_simp
      · ring
    obtain ⟨v, hv, hev⟩ := node_given (alpha := arrayAt alpha) (beta := arrayAt beta) (alpha' := arrayAt (setLast alpha va))
      (beta' := arrayAt beta) (c := xr) (fun k hk => by rw [arrayAt_setLast ha, if_neg (by omega)]) (fun k _ => rfl) hlast.le hg
      (by rw [arrayAt_setLast ha, if_pos rfl, hva]; simp only [Pi.smul_apply, smul_eq_mul]; field_simp; ring)
    obtain ⟨i, hi⟩ := node_of_eigenvector ho hJ hv hev
    refine ⟨by simp, ?_, ⟨_, List.mem_ofFn.mpr ⟨i, by rw [hi]⟩⟩, rfl, e, ?_⟩
    · intro f hf
      rw [sum_ofFn_rule]
      refine rule_exact (d := m + 1) (fun k h1 h2 => (hpos k h1 h2).le) hL.1 (fun k h1 h2 => ?_) (fun q hq => ?_) ho hJ f
        (by omega)
      · rw [q1 k (by omega)]
        have := hL.2 0 k h1 (by omega)
        rwa [monicP_zero, one_mul] at this
      · rw [q2, sub_self, C_0, zero_mul, add_zero, mul_add, map_add, hL.orth le_rfl (by omega),
          mul_left_comm, ← smul_eq_C_mul, map_smul, hL.orth (by omega) hq, smul_zero, zero_add]
    · have hroot : (monicP (arrayAt (setLast alpha va)) (arrayAt beta) (m + 2)).eval xr = 0 := by
        rw [← hi]
        exact rule_roots hpos ho hJ i
      constructor
      · intro h'
        simp only at h'
        rwa [h'] at hroot
      · intro hz
        simp only
        rw [q2, sub_self, C_0, zero_mul, add_zero, eval_add, hz, zero_add, eval_mul, eval_C] at hroot
        rcases mul_eq_zero.mp hroot with h0 | h0
        · have : va = arrayAt alpha (m + 1) := by linarith
          rw [this, setLast_self ha]
        · exfalso
          have down : ∀ k, k ≤ m + 1 → (monicP (arrayAt alpha) (arrayAt beta) (k + 1)).eval xr = 0 →
              (monicP (arrayAt alpha) (arrayAt beta) k).eval xr = 0 → False := by
            intro k
            induction k with
            | zero =>
              intro _ _ h2
              rw [monicP_zero, eval_one] at h2
              exact one_ne_zero h2
            | succ k ih =>
              intro hk h2 h3
              rw [monicP_succ, eval_sub, eval_mul, h3, mul_zero, zero_sub, neg_eq_zero, eval_mul, eval_C] at h2
              exact ih (by omega) h3 ((mul_eq_zero.mp h2).resolve_left (hpos _ (by omega) (by omega)).ne')
          exact down (m + 1) le_rfl hz h0

/-- **C129 (`lobatto`).** With `n ≥ 2` points, the rule has both prescribed nodes and is exact up to degree `2 n - 3`, if the
new last coefficient is not negative. -/
theorem C129_lobatto (eig : EigBanded) (heig : EigContract eig) (solve : LinSolve) (hsolve : SolveContract solve) (m : ℕ)
    (alpha beta : List ℝ) (ha : alpha.length = m + 2) (hb : beta.length = m + 2)
    (hpos : ∀ k, 0 < k → k < m + 1 → 0 < arrayAt beta k) (L : ℝ[X] →ₗ[ℝ] ℝ)
    (hL : HasRecursion L (arrayAt alpha) (arrayAt beta) (m + 2)) (xl1 xl2 : ℝ) (out : (List ℝ × List ℝ) × Rule)
    (h : lobatto eig solve alpha beta xl1 xl2 = .ok out) (hlast : 0 ≤ arrayAt out.1.2 (m + 1)) :
    out.2.length = m + 2 ∧ ExactTo out.2 L (2 * (m + 2) - 3) ∧ (∃ w, (xl1, w) ∈ out.2) ∧ (∃ w, (xl2, w) ∈ out.2) ∧
      gauss eig out.1.1 out.1.2 = .ok out.2 := by
  unfold lobatto at h
  rw [ha] at h
  simp only [hb, if_true] at h
  cases hs1 : solve (m + 1) (jacobiMatrix (m + 1) (fun k => arrayAt alpha k - xl1) (arrayAt beta)) (lastVector (m + 1) 1) with
  | none => rw [hs1] at h; cases h
  | some g1 =>
    rw [hs1] at h
    cases hs2 : solve (m + 1) (jacobiMatrix (m + 1) (fun k => arrayAt alpha k - xl2) (arrayAt beta)) (lastVector (m + 1) 1) with
    | none => rw [hs2] at h; cases h
    | some g2 =>
      rw [hs2] at h
      simp only at h
      cases hs : solve 2 !![1, -g1 (Fin.last m); 1, -g2 (Fin.last m)] ![xl1, xl2] with
      | none => rw [hs] at h; cases h
      | some ab =>
        rw [hs] at h
        simp only at h
        obtain ⟨x, V, ho, hJ, e⟩ := gauss_ok heig (n := m + 1) (alpha := setLast alpha (ab 0)) (beta := setLast beta (ab 1))
          (by rw [setLast_length, ha]) (by rw [setLast_length, hb])
        rw [e] at h
        simp only [Except.ok.injEq] at h
        subst h
        simp only at hlast
        have hab := hsolve _ _ _ _ hs
        have e1 := congrFun hab 0
        have e2 := congrFun hab 1
        simp [Matrix.mulVec, dotProduct, Fin.sum_univ_two] at e1 e2
        obtain ⟨q1, q2⟩ := monicP_modified alpha beta m ha hb (ab 0) (ab 1)
        have h0 : arrayAt (setLast beta (ab 1)) 0 = arrayAt beta 0 := by rw [arrayAt_setLast hb, if_neg (by omega)]
        have node : ∀ (c : ℝ) (g : Fin (m + 1) → ℝ),
            jacobiMatrix (m + 1) (fun k => arrayAt alpha k - c) (arrayAt beta) *ᵥ g = lastVector (m + 1) 1 →
            ab 0 - ab 1 * g (Fin.last m) = c → ∃ i, x i = c := by
          intro c g hg hc
          obtain ⟨v, hv, hev⟩ := node_given (alpha := arrayAt alpha) (beta := arrayAt beta)
            (alpha' := arrayAt (setLast alpha (ab 0))) (beta' := arrayAt (setLast beta (ab 1))) (c := c)
            (fun k hk => by rw [arrayAt_setLast ha, if_neg (by omega)])
            (fun k hk => by rw [arrayAt_setLast hb, if_neg (by omega)]) hlast hg
            (by rw [arrayAt_setLast ha, arrayAt_setLast hb, if_pos rfl, if_pos rfl]; exact hc)
          exact node_of_eigenvector ho hJ hv hev
        obtain ⟨i, hi⟩ := node xl1 g1 (hsolve _ _ _ _ hs1) (by linarith)
        obtain ⟨j, hj⟩ := node xl2 g2 (hsolve _ _ _ _ hs2) (by linarith)
        refine ⟨by simp, ?_, ⟨_, List.mem_ofFn.mpr ⟨i, by rw [hi]⟩⟩, ⟨_, List.mem_ofFn.mpr ⟨j, by rw [hj]⟩⟩, e⟩
        intro f hf
        rw [sum_ofFn_rule]
        refine rule_exact (d := m) (fun k h1 h2 => ?_) (by rw [h0]; exact hL.1) (fun k h1 h2 => ?_) (fun q hq => ?_) ho hJ f
          (by omega)
        · by_cases hk : k = m + 1
          · rw [hk]; exact hlast
          · rw [arrayAt_setLast hb, if_neg hk]; exact (hpos k h1 (by omega)).le
        · rw [q1 k (by omega)]
          have := hL.2 0 k h1 (by omega)
          rwa [monicP_zero, one_mul] at this
        · rw [q2, mul_add, mul_add, map_add, map_add, hL.orth le_rfl (by omega), mul_left_comm, ← smul_eq_C_mul, map_smul,
            hL.orth (by omega) (by omega), mul_left_comm, ← smul_eq_C_mul, map_smul, hL.orth (by omega) hq]
          simp

/-! ## Nodes and weights for positive functionals -/

theorem nodes_of_positive {n : ℕ} {x w : Fin (n + 1) → ℝ} {L : ℝ[X] →ₗ[ℝ] ℝ} {lo hi : ℝ} (hL : PositiveOn L lo hi)
    (hex : ∀ f : ℝ[X], f.natDegree ≤ 2 * n + 1 → ∑ i, f.eval (x i) * w i = L f) :
    Function.Injective x ∧ (∀ i, 0 < w i) ∧ ∀ i, lo < x i ∧ x i < hi := by
  classical
  -- the product over all nodes except one
  have hq : ∀ i : Fin (n + 1), ∃ q : ℝ[X], q.Monic ∧ q.natDegree = n ∧ ∀ j, j ≠ i → q.eval (x j) = 0 := by
    intro i
    refine ⟨∏ j ∈ Finset.univ.erase i, (X - C (x j)), monic_prod_of_monic _ _ fun j _ => monic_X_sub_C _, ?_, ?_⟩
    · rw [natDegree_prod_of_monic _ _ fun j _ => monic_X_sub_C _]
      simp
    · intro j hj
      rw [eval_prod]
      exact Finset.prod_eq_zero (Finset.mem_erase.mpr ⟨hj, Finset.mem_univ j⟩) (by simp)
  have hsq : ∀ i, ∀ q : ℝ[X], q.Monic → q.natDegree = n → (∀ j, j ≠ i → q.eval (x j) = 0) →
      0 < q.eval (x i) ^ 2 * w i := by
    intro i q hm hd hz
    have h1 : 0 < L (q ^ 2) := hL _ (fun y _ _ => by rw [eval_pow]; positivity) (pow_ne_zero 2 hm.ne_zero)
    rw [← hex _ (by rw [hm.natDegree_pow, hd]; omega), Finset.sum_eq_single i] at h1
    · rwa [eval_pow] at h1
    · intro j _ hj
      rw [eval_pow, hz j hj]; ring
    · intro h; exact absurd (Finset.mem_univ _) h
  have hw : ∀ i, 0 < w i := by
    intro i
    obtain ⟨q, hm, hd, hz⟩ := hq i
    have := hsq i q hm hd hz
    exact (pos_iff_pos_of_mul_pos this).mp (lt_of_le_of_ne (sq_nonneg _) fun e => by rw [← e, zero_mul] at this; exact lt_irrefl _ this)
  have hne : ∀ i, ∀ q : ℝ[X], q.Monic → q.natDegree = n → (∀ j, j ≠ i → q.eval (x j) = 0) → q.eval (x i) ≠ 0 := by
    intro i q hm hd hz e
    have := hsq i q hm hd hz
    rw [e] at this
    simp at this
  have hout : ∀ i (sgn : ℝ), sgn ≠ 0 → ¬ ∀ y, lo < y → y < hi → 0 ≤ sgn * (y - x i) := by
    intro i sgn hs hy
    obtain ⟨q, hm, hd, hz⟩ := hq i
    have hp : 0 < L (C sgn * (q ^ 2 * (X - C (x i)))) := by
      refine hL _ (fun y h1 h2 => ?_) ?_
      · have := mul_nonneg (hy y h1 h2) (sq_nonneg (q.eval y))
        simp only [eval_mul, eval_C, eval_pow, eval_sub, eval_X]
        linarith
      · exact mul_ne_zero (C_ne_zero.mpr hs) ((hm.pow 2).mul (monic_X_sub_C _)).ne_zero
    rw [← hex _ (by
      refine le_trans (natDegree_C_mul_le _ _) ?_
      rw [(hm.pow 2).natDegree_mul (monic_X_sub_C _), hm.natDegree_pow, natDegree_X_sub_C, hd])] at hp
    rw [Finset.sum_eq_zero] at hp
    · exact lt_irrefl _ hp
    · intro j _
      by_cases h : j = i
      · subst h; simp
      · simp [hz j h]
  refine ⟨?_, hw, fun i => ⟨?_, ?_⟩⟩
  · intro i j hij
    by_contra hne'
    obtain ⟨q, hm, hd, hz⟩ := hq i
    exact hne i q hm hd hz (by rw [hij]; exact hz j (Ne.symm hne'))
  · by_contra h
    exact hout i 1 one_ne_zero fun y h1 _ => by linarith
  · by_contra h
    exact hout i (-1) (by norm_num) fun y _ h2 => by linarith

/-- **C129 (nodes and weights).** For integration with a positive weight on an interval, the `n` nodes of `gauss` are distinct
and inside the interval, and the weights are positive. -/
theorem C129_nodes (eig : EigBanded) (heig : EigContract eig) (n : ℕ) (alpha beta : List ℝ) (ha : alpha.length = n + 1)
    (hb : beta.length = n + 1) (hpos : ∀ k, 0 < k → k < n + 1 → 0 < arrayAt beta k) (L : ℝ[X] →ₗ[ℝ] ℝ)
    (hL : HasRecursion L (arrayAt alpha) (arrayAt beta) (n + 1)) (lo hi : ℝ) (hpL : PositiveOn L lo hi) (rule : Rule)
    (h : gauss eig alpha beta = .ok rule) :
    (rule.map Prod.fst).Nodup ∧ ∀ xw ∈ rule, lo < xw.1 ∧ xw.1 < hi ∧ 0 < xw.2 := by
  obtain ⟨rule', e', -, hex, -⟩ := C129_gauss eig heig n alpha beta ha hb hpos L hL
  obtain ⟨x, V, ho, hJ, e⟩ := gauss_ok heig ha hb
  rw [h] at e e'
  cases e'
  cases e
  obtain ⟨h1, h2, h3⟩ := nodes_of_positive (x := x) (w := fun i => arrayAt beta 0 * V 0 i ^ 2) hpL
    (fun f hf => by rw [← hex f hf, sum_ofFn_rule])
  refine ⟨?_, ?_⟩
  · rw [List.map_ofFn]
    exact List.nodup_ofFn.mpr h1
  · intro xw hx
    obtain ⟨i, rfl⟩ := List.mem_ofFn.mp hx
    exact ⟨(h3 i).1, (h3 i).2, h2 i⟩

end PyBBN
