import Verif.Model.Chebyshev
import Verif.Props.Orthopoly
/-!
# C134: recursion coefficients from modified moments

`mod_chebyshev` (common/orthopoly.py 340–388) finds the recursion coefficients of a weight from its integrals over other
polynomials with a known recursion.
-/
namespace PyBBN
open Polynomial

/-- The functional is positive on squares of polynomials below degree `N`. -/
def PositiveBelow (L : ℝ[X] →ₗ[ℝ] ℝ) (N : ℕ) : Prop := ∀ f : ℝ[X], f ≠ 0 → f.natDegree < N → 0 < L (f * f)

/-! ## The orthogonal polynomials of a functional -/

/-- Orthogonal polynomial of order `k` and the one before it (zero for `k = 0`). -/
noncomputable def orthoPair (L : ℝ[X] →ₗ[ℝ] ℝ) : ℕ → ℝ[X] × ℝ[X]
  | 0 => (1, 0)
  | k + 1 =>
    let p := (orthoPair L k).1
    let q := (orthoPair L k).2
    ((X - C (L (X * p * p) / L (p * p))) * p - C (L (p * p) / L (q * q)) * q, p)

noncomputable def orthoA (L : ℝ[X] →ₗ[ℝ] ℝ) (k : ℕ) : ℝ :=
  L (X * (orthoPair L k).1 * (orthoPair L k).1) / L ((orthoPair L k).1 * (orthoPair L k).1)
noncomputable def orthoB (L : ℝ[X] →ₗ[ℝ] ℝ) (k : ℕ) : ℝ :=
  if k = 0 then L 1 else L ((orthoPair L k).1 * (orthoPair L k).1) / L ((orthoPair L k).2 * (orthoPair L k).2)

theorem orthoPair_snd (L : ℝ[X] →ₗ[ℝ] ℝ) (k : ℕ) : (orthoPair L (k + 1)).2 = (orthoPair L k).1 := rfl

section
variable (L : ℝ[X] →ₗ[ℝ] ℝ)

theorem orthoPair_eq (k : ℕ) : (orthoPair L k).1 = monicP (orthoA L) (orthoB L) k := by
  induction k using Nat.strong_induction_on with
  | _ k ih =>
    match k with
    | 0 => rw [monicP_zero]; rfl
    | 1 =>
      rw [monicP_one]
      change (X - C (L (X * 1 * 1) / L (1 * 1))) * 1 - C (L (1 * 1) / L (0 * 0)) * 0 = _
      rw [mul_zero, sub_zero, mul_one]
      rfl
    | k + 2 =>
      rw [monicP_succ, ← ih (k + 1) (by omega), ← ih k (by omega)]
      rfl

/-- Coefficients of the orthogonal polynomials as quotients. -/
theorem ortho_coeff (k : ℕ) :
    orthoA L k = L (X * monicP (orthoA L) (orthoB L) k * monicP (orthoA L) (orthoB L) k) /
      L (monicP (orthoA L) (orthoB L) k * monicP (orthoA L) (orthoB L) k) ∧
    orthoB L (k + 1) = L (monicP (orthoA L) (orthoB L) (k + 1) * monicP (orthoA L) (orthoB L) (k + 1)) /
      L (monicP (orthoA L) (orthoB L) k * monicP (orthoA L) (orthoB L) k) := by
  rw [← orthoPair_eq, ← orthoPair_eq]
  refine ⟨rfl, ?_⟩
  unfold orthoB
  rw [if_neg (by omega)]
  rfl

/-- The recursion under the functional. -/
theorem mixed_shift (a b : ℕ → ℝ) (m : ℕ) (p : ℝ[X]) :
    L (X * p * monicP a b m) = L (p * monicP a b (m + 1)) + a m * L (p * monicP a b m) +
      if m = 0 then 0 else b m * L (p * monicP a b (m - 1)) := by
  cases m with
  | zero =>
    have e : X * p * monicP a b 0 = p * monicP a b 1 + a 0 • (p * monicP a b 0) := by
      rw [monicP_one, monicP_zero, smul_eq_C_mul]; ring
    rw [e, map_add, map_smul, if_pos rfl, add_zero]
    rfl
  | succ i =>
    have e : X * p * monicP a b (i + 1) = p * monicP a b (i + 2) + a (i + 1) • (p * monicP a b (i + 1)) +
        b (i + 1) • (p * monicP a b i) := by
      rw [monicP_succ, smul_eq_C_mul, smul_eq_C_mul]; ring
    rw [e, map_add, map_add, map_smul, map_smul, if_neg (by omega)]
    rfl

variable {L} {N : ℕ} (hL : PositiveBelow L N)
include hL

theorem ortho_norm_pos (a b : ℕ → ℝ) {k : ℕ} (hk : k < N) : 0 < L (monicP a b k * monicP a b k) := by
  obtain ⟨h1, h2⟩ := monicP_monic a b k
  exact hL _ h1.ne_zero (by rw [h2]; exact hk)

/-- The polynomials are orthogonal. -/
theorem ortho_orthogonal (k : ℕ) : k ≤ N → ∀ j, j < k →
    L (monicP (orthoA L) (orthoB L) j * monicP (orthoA L) (orthoB L) k) = 0 := by
  induction k using Nat.strong_induction_on with
  | _ k ih =>
    intro hk j hj
    rcases k with _ | k
    · omega
    have hn1 := ortho_norm_pos hL (orthoA L) (orthoB L) (k := k) (by omega)
    have ha := (ortho_coeff L k).1
    have o : ∀ i, i < k → L (monicP (orthoA L) (orthoB L) i * monicP (orthoA L) (orthoB L) k) = 0 :=
      ih k (by omega) (by omega)
    have h1 := mixed_shift L (orthoA L) (orthoB L) k (monicP (orthoA L) (orthoB L) j)
    have h2 := mixed_shift L (orthoA L) (orthoB L) j (monicP (orthoA L) (orthoB L) k)
    have e : X * monicP (orthoA L) (orthoB L) k * monicP (orthoA L) (orthoB L) j =
        X * monicP (orthoA L) (orthoB L) j * monicP (orthoA L) (orthoB L) k := by ring
    rcases (by omega : j = k ∨ j < k) with rfl | hjk
    · rw [eq_div_iff hn1.ne'] at ha
      have h3 : (if j = 0 then 0 else orthoB L j * L (monicP (orthoA L) (orthoB L) j *
          monicP (orthoA L) (orthoB L) (j - 1))) = 0 := by
        split_ifs with h
        · rfl
        · rw [mul_comm (monicP _ _ j), o (j - 1) (by omega), mul_zero]
      rw [h3] at h1
      linarith
    · rw [e, h1, o j hjk] at h2
      have h3 : (if j = 0 then 0 else orthoB L j * L (monicP (orthoA L) (orthoB L) k *
          monicP (orthoA L) (orthoB L) (j - 1))) = 0 := by
        split_ifs with h
        · rfl
        · rw [mul_comm (monicP _ _ k), o (j - 1) (by omega), mul_zero]
      rw [h3, mul_comm (monicP _ _ k) (monicP _ _ j), o j hjk, if_neg (by omega),
        mul_comm (monicP _ _ k) (monicP _ _ (j + 1))] at h2
      obtain ⟨i, rfl⟩ : ∃ i, k = i + 1 := ⟨k - 1, by omega⟩
      have hn0 := ortho_norm_pos hL (orthoA L) (orthoB L) (k := i) (by omega)
      have hb := (ortho_coeff L i).2
      rw [eq_div_iff hn0.ne'] at hb
      rw [Nat.add_sub_cancel] at h2
      rcases (by omega : j = i ∨ j < i) with rfl | hji
      · linarith
      · rw [o (j + 1) (by omega), ih i (by omega) (by omega) j hji] at h2
        linarith

/-- An orthogonal polynomial is orthogonal to everything of lower degree. -/
theorem ortho_lower {k : ℕ} (hk : k ≤ N) (f : ℝ[X]) (hf : f.natDegree < k) :
    L (monicP (orthoA L) (orthoB L) k * f) = 0 := by
  obtain ⟨n, rfl⟩ : ∃ n, k = n + 1 := ⟨k - 1, by omega⟩
  let S : Submodule ℝ ℝ[X] := LinearMap.ker (L ∘ₗ LinearMap.mulLeft ℝ (monicP (orthoA L) (orthoB L) (n + 1)))
  have := mem_of_monicP (orthoA L) (orthoB L) S n (fun j hj => by
    change L (_ * _) = 0
    rw [mul_comm]
    exact ortho_orthogonal hL (n + 1) hk j (by omega)) f (by omega)
  exact this

/-! ## The mixed moments -/
variable (am bm : ℕ → ℝ)

theorem mixed_lower {k m : ℕ} (hk : k ≤ N) (hm : m < k) :
    L (monicP (orthoA L) (orthoB L) k * monicP am bm m) = 0 :=
  ortho_lower hL hk _ (by rw [(monicP_monic am bm m).2]; exact hm)

theorem mixed_diag {k : ℕ} (hk : k ≤ N) :
    L (monicP (orthoA L) (orthoB L) k * monicP am bm k) =
      L (monicP (orthoA L) (orthoB L) k * monicP (orthoA L) (orthoB L) k) := by
  rcases Nat.eq_zero_or_pos k with rfl | hpos
  · rw [monicP_zero, monicP_zero]
  obtain ⟨a1, a2⟩ := monicP_monic am bm k
  obtain ⟨b1, b2⟩ := monicP_monic (orthoA L) (orthoB L) k
  rw [← sub_eq_zero, ← map_sub, ← mul_sub]
  refine ortho_lower hL hk _ ?_
  have hlt : (monicP am bm k - monicP (orthoA L) (orthoB L) k).degree < (monicP am bm k).degree := by
    refine degree_sub_lt_left ?_ a1.ne_zero ?_
    · rw [degree_eq_natDegree a1.ne_zero, degree_eq_natDegree b1.ne_zero, a2, b2]
    · rw [a1.leadingCoeff, b1.leadingCoeff]
  rw [degree_eq_natDegree a1.ne_zero, a2] at hlt
  rcases eq_or_ne (monicP am bm k - monicP (orthoA L) (orthoB L) k) 0 with h | h
  · rw [h, natDegree_zero]; exact hpos
  · exact (natDegree_lt_iff_degree_lt h).mpr hlt

/-- The coefficient `alpha_k` in terms of mixed moments. -/
theorem ortho_alpha {k : ℕ} (hk : k < N) : orthoA L k = am k +
    L (monicP (orthoA L) (orthoB L) k * monicP am bm (k + 1)) / L (monicP (orthoA L) (orthoB L) k * monicP am bm k) -
    if k = 0 then 0 else L (monicP (orthoA L) (orthoB L) (k - 1) * monicP am bm k) /
      L (monicP (orthoA L) (orthoB L) (k - 1) * monicP am bm (k - 1)) := by
  have h1 := mixed_shift L am bm k (monicP (orthoA L) (orthoB L) k)
  have h2 := mixed_shift L (orthoA L) (orthoB L) k (monicP am bm k)
  rw [show X * monicP am bm k * monicP (orthoA L) (orthoB L) k = X * monicP (orthoA L) (orthoB L) k * monicP am bm k by ring,
    h1, mul_comm (monicP am bm k) (monicP _ _ (k + 1)), mixed_lower hL am bm (by omega) (Nat.lt_succ_self k),
    mul_comm (monicP am bm k) (monicP _ _ k)] at h2
  have hn := ortho_norm_pos hL (orthoA L) (orthoB L) hk
  rw [← mixed_diag hL am bm hk.le] at hn
  rcases Nat.eq_zero_or_pos k with rfl | hpos
  · rw [if_pos rfl, if_pos rfl] at h2
    rw [if_pos rfl, sub_zero]
    field_simp
    linarith
  · rw [if_neg hpos.ne', if_neg hpos.ne', mixed_lower hL am bm hk.le (show k - 1 < k by omega), mul_zero, add_zero,
      zero_add] at h2
    rw [if_neg hpos.ne']
    obtain ⟨i, rfl⟩ : ∃ i, k = i + 1 := ⟨k - 1, by omega⟩
    rw [Nat.add_sub_cancel] at h2 ⊢
    have hb := (ortho_coeff L i).2
    rw [← mixed_diag hL am bm (by omega), ← mixed_diag hL am bm (by omega)] at hb
    have hn0 := ortho_norm_pos hL (orthoA L) (orthoB L) (k := i) (by omega)
    rw [← mixed_diag hL am bm (by omega)] at hn0
    rw [hb, mul_comm (monicP am bm (i + 1)) (monicP _ _ i)] at h2
    field_simp at h2 ⊢
    linarith

/-! ## The loop -/

omit hL in
/-- State before the pass `n + 1`. -/
def ChebInv (L : ℝ[X] →ₗ[ℝ] ℝ) (N : ℕ) (am bm : ℕ → ℝ) (n : ℕ) (s : ChebState) : Prop :=
  (∀ k, k < n → s.alpha k = orthoA L k) ∧ (∀ k, k < n → s.beta k = orthoB L k) ∧
  (∀ k, k < n → s.normsq k = L (monicP (orthoA L) (orthoB L) k * monicP (orthoA L) (orthoB L) k)) ∧
  (∀ m, n - 1 ≤ m → m ≤ 2 * N - n → s.cur m = L (monicP (orthoA L) (orthoB L) (n - 1) * monicP am bm m)) ∧
  (∀ m, n - 2 ≤ m → m ≤ 2 * N - n + 1 →
    s.prev m = if n = 1 then 0 else L (monicP (orthoA L) (orthoB L) (n - 2) * monicP am bm m))

theorem cheb_init (mom : ℕ → ℝ) (hN : 0 < N) (hmom : ∀ m, m < 2 * N → mom m = L (monicP am bm m)) :
    ChebInv L N am bm 1 (chebInit mom am) := by
  have h0 := hmom 0 (by omega)
  have h1 := hmom 1 (by omega)
  refine ⟨fun k hk => ?_, fun k hk => ?_, fun k hk => ?_, fun m _ hm => ?_, fun m _ _ => ?_⟩
  · obtain rfl : k = 0 := by omega
    have := ortho_alpha hL am bm hN
    rw [if_pos rfl, monicP_zero, one_mul, one_mul, sub_zero] at this
    rw [this, ← h0, ← h1]
    simp [chebInit]
  · obtain rfl : k = 0 := by omega
    rw [monicP_zero] at h0
    simp [chebInit, orthoB, h0]
  · obtain rfl : k = 0 := by omega
    rw [monicP_zero] at h0
    simp [chebInit, monicP_zero, h0]
  · rw [Nat.sub_self, monicP_zero, one_mul]
    exact hmom m (by omega)
  · rfl

theorem cheb_step (n : ℕ) (h1 : 1 ≤ n) (hn : n < N) (s : ChebState) (hs : ChebInv L N am bm n s) :
    ChebInv L N am bm (n + 1) (chebStep N am bm s (n + 1)) := by
  obtain ⟨ha, hb, hq, hc, hp⟩ := hs
  have hrow : ∀ m, n ≤ m → m < 2 * N - n →
      chebRow N am bm (n + 1) s m = L (monicP (orthoA L) (orthoB L) n * monicP am bm m) := by
    intro m hm hm'
    unfold chebRow
    rw [if_pos (by omega), show n + 1 - 2 = n - 1 by omega, ha (n - 1) (by omega), hb (n - 1) (by omega),
      hc (m + 1) (by omega) (by omega), hc m (by omega) (by omega), hc (m - 1) (by omega) (by omega),
      hp m (by omega) (by omega)]
    have e1 := mixed_shift L am bm m (monicP (orthoA L) (orthoB L) (n - 1))
    have e2 := mixed_shift L (orthoA L) (orthoB L) (n - 1) (monicP am bm m)
    rw [show X * monicP am bm m * monicP (orthoA L) (orthoB L) (n - 1) =
      X * monicP (orthoA L) (orthoB L) (n - 1) * monicP am bm m by ring, e1, if_neg (by omega),
      show n - 1 + 1 = n by omega, show n - 1 - 1 = n - 2 by omega, mul_comm (monicP am bm m) (monicP _ _ n),
      mul_comm (monicP am bm m) (monicP _ _ (n - 1)), mul_comm (monicP am bm m) (monicP _ _ (n - 2))] at e2
    rcases eq_or_ne n 1 with rfl | h
    · rw [if_pos rfl] at e2 ⊢
      linarith
    · rw [if_neg (by omega)] at e2
      rw [if_neg h]
      linarith
  have hd : chebRow N am bm (n + 1) s n = L (monicP (orthoA L) (orthoB L) n * monicP am bm n) := hrow n le_rfl (by omega)
  have hd1 : s.cur (n - 1) = L (monicP (orthoA L) (orthoB L) (n - 1) * monicP am bm (n - 1)) :=
    hc (n - 1) le_rfl (by omega)
  unfold ChebInv chebStep
  dsimp only
  rw [Nat.add_sub_cancel, show n + 1 - 2 = n - 1 by omega]
  refine ⟨fun k hk => ?_, fun k hk => ?_, fun k hk => ?_, fun m hm hm' => hrow m hm (by omega), fun m hm hm' => ?_⟩
  · rcases eq_or_ne k n with rfl | h
    · rw [Function.update_self, hrow (k + 1) (by omega) (by omega), hd, hc k (by omega) (by omega), hd1,
        ortho_alpha hL am bm hn, if_neg (by omega)]
    · rw [Function.update_of_ne h]
      exact ha k (by omega)
  · rcases eq_or_ne k n with rfl | h
    · rw [Function.update_self, hd, hd1, mixed_diag hL am bm hn.le, mixed_diag hL am bm (by omega)]
      obtain ⟨i, rfl⟩ : ∃ i, k = i + 1 := ⟨k - 1, by omega⟩
      exact (ortho_coeff L i).2.symm
    · rw [Function.update_of_ne h]
      exact hb k (by omega)
  · rcases eq_or_ne k n with rfl | h
    · rw [Function.update_self, hd, mixed_diag hL am bm hn.le]
    · rw [Function.update_of_ne h]
      exact hq k (by omega)
  · rw [if_neg (by omega)]
    exact hc m hm (by omega)

theorem cheb_loop (mom : ℕ → ℝ) (hmom : ∀ m, m < 2 * N → mom m = L (monicP am bm m)) (j : ℕ) (hj : j < N) :
    ChebInv L N am bm (j + 1) ((List.range' 2 j).foldl (chebStep N am bm) (chebInit mom am)) := by
  induction j with
  | zero => exact cheb_init hL am bm mom hj hmom
  | succ j ih =>
    rw [List.range'_concat, List.foldl_append]
    have := cheb_step hL am bm (j + 1) (by omega) hj _ (ih (by omega))
    rw [show 2 + 1 * j = j + 1 + 1 by omega]
    exact this
end

theorem arrayAt_map (f : ℕ → ℝ) (n k : ℕ) (hk : k < n) : arrayAt ((List.range n).map f) k = f k := by
  unfold arrayAt
  simp [List.getD, hk]

/-- **C134.** From the `2N` values of a functional on polynomials with a known recursion, `mod_chebyshev` returns the recursion
coefficients, up to order `N`, of the orthogonal polynomials of the functional, and their norms; the functional has to
be positive on squares below degree `N`, and `N` may be given larger. -/
theorem C134_chebyshev (n : ℕ) (hn : 0 < n) (N : ℤ) (hN : (n : ℤ) ≤ N) (mom alpham betam : List ℝ)
    (hmom : mom.length = 2 * n) (hal : 2 * n - 1 ≤ alpham.length) (hbe : 2 * n - 1 ≤ betam.length)
    (L : ℝ[X] →ₗ[ℝ] ℝ) (hL : PositiveBelow L n)
    (hval : ∀ m, m < 2 * n → arrayAt mom m = L (monicP (arrayAt alpham) (arrayAt betam) m)) :
    ∃ alpha beta normsq, modChebyshev N mom alpham betam = .ok (alpha, beta, normsq) ∧
      alpha.length = n ∧ beta.length = n ∧ normsq.length = n ∧
      HasRecursion L (arrayAt alpha) (arrayAt beta) n ∧ (∀ k, k < n → 0 < arrayAt beta k) ∧
      ∀ k, k < n → arrayAt normsq k =
        L (monicP (arrayAt alpha) (arrayAt beta) k * monicP (arrayAt alpha) (arrayAt beta) k) := by
  have hmin : min N.toNat (mom.length / 2) = n := by omega
  have hloop := cheb_loop hL (arrayAt alpham) (arrayAt betam) (arrayAt mom) hval (n - 1) (by omega)
  rw [show n - 1 + 1 = n by omega] at hloop
  obtain ⟨ha, hb, hq, -, -⟩ := hloop
  set s := (List.range' 2 (n - 1)).foldl (chebStep n (arrayAt alpham) (arrayAt betam))
    (chebInit (arrayAt mom) (arrayAt alpham)) with hs
  have hP : ∀ k, k ≤ n → monicP (arrayAt ((List.range n).map s.alpha)) (arrayAt ((List.range n).map s.beta)) k =
      monicP (orthoA L) (orthoB L) k := fun k hk =>
    monicP_congr (fun i hi => by rw [arrayAt_map _ _ _ (by omega), ha i (by omega)])
      (fun i _ hi => by rw [arrayAt_map _ _ _ (by omega), hb i (by omega)])
  refine ⟨(List.range n).map s.alpha, (List.range n).map s.beta, (List.range n).map s.normsq, ?_, by simp, by simp, by simp,
    ⟨?_, ?_⟩, ?_, ?_⟩
  · unfold modChebyshev
    rw [if_neg (by omega)]
    dsimp only
    have hne : ¬ (n = 0 ∨ alpham = []) := by
      rintro (h | h)
      · omega
      · rw [h, List.length_nil] at hal; omega
    rw [hmin, if_neg hne, if_neg (by omega), if_neg (by omega)]
  · rw [arrayAt_map _ _ _ hn, hb 0 hn]
    rfl
  · intro j k hjk hk
    rw [hP j (by omega), hP k hk]
    exact ortho_orthogonal hL k hk j hjk
  · intro k hk
    rw [arrayAt_map _ _ _ hk, hb k hk]
    have := ortho_norm_pos hL (orthoA L) (orthoB L) hk
    rcases k with _ | k
    · rw [monicP_zero, one_mul] at this
      simpa [orthoB] using this
    · rw [(ortho_coeff L k).2]
      exact div_pos this (ortho_norm_pos hL _ _ (by omega))
  · intro k hk
    rw [arrayAt_map _ _ _ hk, hP k hk.le]
    exact hq k hk

/-- **C134, the rule.** The rule which `gauss` makes of these coefficients reproduces the functional for all polynomials up to
degree `2N - 1`. -/
theorem C134_rule (eig : EigBanded) (heig : EigContract eig) (n : ℕ) (hn : 0 < n) (N : ℤ) (hN : (n : ℤ) ≤ N)
    (mom alpham betam : List ℝ) (hmom : mom.length = 2 * n) (hal : 2 * n - 1 ≤ alpham.length)
    (hbe : 2 * n - 1 ≤ betam.length) (L : ℝ[X] →ₗ[ℝ] ℝ) (hL : PositiveBelow L n)
    (hval : ∀ m, m < 2 * n → arrayAt mom m = L (monicP (arrayAt alpham) (arrayAt betam) m)) :
    ∃ alpha beta normsq rule, modChebyshev N mom alpham betam = .ok (alpha, beta, normsq) ∧
      gauss eig alpha beta = .ok rule ∧ rule.length = n ∧ ExactTo rule L (2 * n - 1) := by
  obtain ⟨al, be, nq, h, h1, h2, -, h4, h5, -⟩ := C134_chebyshev n hn N hN mom alpham betam hmom hal hbe L hL hval
  obtain ⟨i, rfl⟩ : ∃ i, n = i + 1 := ⟨n - 1, by omega⟩
  obtain ⟨rule, r1, r2, r3, -⟩ := C129_gauss eig heig i al be h1 h2 (fun k _ hk => h5 k hk) L h4
  exact ⟨al, be, nq, rule, h, r1, r2, r3⟩

/-- **C134 fails for other numbers of moments.** With more moments than `2N`, or an odd number of them, the call raises. -/
theorem C134_count_refuted (N : ℤ) (mom alpham betam : List ℝ) (hN : 1 ≤ N) (h2 : 2 ≤ mom.length) (ha : alpham ≠ [])
    (h : 2 * N < mom.length ∨ mom.length % 2 = 1) : modChebyshev N mom alpham betam = .error .valueError := by
  unfold modChebyshev
  rw [if_neg (by omega)]
  dsimp only
  have hne : ¬ (min N.toNat (mom.length / 2) = 0 ∨ alpham = []) := by
    rintro (h | h)
    · omega
    · exact ha h
  rw [if_neg hne, if_pos (by omega)]

section Example
/-- The weight is concentrated at 0 and 1; the known polynomials are the powers. -/
private noncomputable def twoPoints : ℝ[X] →ₗ[ℝ] ℝ := leval 0 + leval 1

private theorem twoPoints_apply (f : ℝ[X]) : twoPoints f = f.eval 0 + f.eval 1 := rfl

private theorem twoPoints_positive : PositiveBelow twoPoints 2 := by
  intro f hf hd
  rw [twoPoints_apply, eval_mul, eval_mul]
  by_contra h
  have h0 : f.eval 0 = 0 := by nlinarith [mul_self_nonneg (f.eval 0), mul_self_nonneg (f.eval 1)]
  have h1 : f.eval 1 = 0 := by nlinarith [mul_self_nonneg (f.eval 0), mul_self_nonneg (f.eval 1)]
  rw [eq_X_add_C_of_natDegree_le_one (by omega : f.natDegree ≤ 1)] at h0 h1 hf
  simp at h0 h1
  rw [h0, add_zero] at h1
  rw [h0, h1] at hf
  simp at hf

private theorem twoPoints_moments (m : ℕ) (hm : m < 4) :
    arrayAt [2, 1, 1, 1] m = twoPoints (monicP (arrayAt [0, 0, 0]) (arrayAt [0, 0, 0]) m) := by
  have hz : ∀ k, arrayAt [0, 0, 0] k = 0 := by
    intro k
    unfold arrayAt
    rcases k with _ | _ | _ | k <;> simp [List.getD]
  have hX : ∀ k, monicP (arrayAt [0, 0, 0]) (arrayAt [0, 0, 0]) k = X ^ k := by
    intro k
    induction k using Nat.strong_induction_on with
    | _ k ih =>
      match k with
      | 0 => rw [monicP_zero, pow_zero]
      | 1 => rw [monicP_one, hz]; simp
      | k + 2 => rw [monicP_succ, hz, ih (k + 1) (by omega)]; simp; ring
  rw [hX, twoPoints_apply]
  interval_cases m <;> norm_num [arrayAt, List.getD]

example : ∃ alpha beta normsq, modChebyshev 2 [2, 1, 1, 1] [0, 0, 0] [0, 0, 0] = .ok (alpha, beta, normsq) ∧
    alpha.length = 2 ∧ beta.length = 2 ∧ normsq.length = 2 ∧
    HasRecursion twoPoints (arrayAt alpha) (arrayAt beta) 2 ∧ (∀ k, k < 2 → 0 < arrayAt beta k) ∧
    ∀ k, k < 2 → arrayAt normsq k =
      twoPoints (monicP (arrayAt alpha) (arrayAt beta) k * monicP (arrayAt alpha) (arrayAt beta) k) :=
  C134_chebyshev 2 (by norm_num) 2 (by norm_num) _ _ _ rfl (by simp) (by simp) twoPoints twoPoints_positive
    twoPoints_moments

example (eig : EigBanded) (heig : EigContract eig) :
    ∃ alpha beta normsq rule, modChebyshev 7 [2, 1, 1, 1] [0, 0, 0] [0, 0, 0] = .ok (alpha, beta, normsq) ∧
      gauss eig alpha beta = .ok rule ∧ rule.length = 2 ∧ ExactTo rule twoPoints 3 :=
  C134_rule eig heig 2 (by norm_num) 7 (by norm_num) _ _ _ rfl (by simp) (by simp) twoPoints twoPoints_positive
    twoPoints_moments

example : modChebyshev 2 [2, 1, 1, 1] [0, 0, 0] [0, 0, 0] = .ok ([1/2, 1/2], [2, 1/4], [2, 1/2]) := by
  unfold modChebyshev
  have h2 : Int.toNat 2 = 2 := rfl
  norm_num [h2, reduceCtorEq, List.range'_succ, List.range_succ, chebStep, chebInit, chebRow, arrayAt, List.getD]
  intro h
  cases h

/-- Six moments for `N = 2`. -/
example : modChebyshev 2 [2, 1, 1, 1, 1, 1] [0, 0, 0, 0, 0] [0, 0, 0, 0, 0] = .error .valueError :=
  C134_count_refuted 2 _ _ _ (by norm_num) (by simp) (by simp) (Or.inl (by norm_num))
end Example

end PyBBN
