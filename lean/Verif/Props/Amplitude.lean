import Verif.Props.DFunctions
import Verif.Props.DLimits
/-!
# C63: the kernel `D` is the angular average of the squared amplitude

With actual momenta `pᵢ` and sides `sᵢ = ±1`, momentum conservation reads `Σ sᵢ pᵢ = 0`, so the
four-vector product of particles `i, j` is `Qᵢ·Qⱼ = EᵢEⱼ - sᵢsⱼ (sᵢpᵢ)·(sⱼpⱼ)`, and the scalar product of
the signed momenta is determined by `d = |sᵢpᵢ + sⱼpⱼ| = |sₖpₖ + sₗpₗ|`.
-/
namespace PyBBN

open Filter Topology

/-- Four-vector product of two particles with energies `E`, momenta `p`, sides `s`, when the signed
momenta add up to a vector of length `d`. -/
noncomputable def fourProduct (E p : Fin 4 → ℝ) (s : Fin 4 → ℤ) (i j : Fin 4) (d : ℝ) : ℝ :=
  E i * E j - s i * s j * dot (p i) (p j) d

/-- The squared amplitude `K1 (Qᵢ·Qⱼ)(Qₖ·Qₗ) + K2 mᵢ mⱼ (Qₖ·Qₗ)`. -/
noncomputable def amplitude (E p m : Fin 4 → ℝ) (s : Fin 4 → ℤ) (K1 K2 : ℝ) (i j k l : Fin 4)
    (d : ℝ) : ℝ :=
  K1 * fourProduct E p s i j d * fourProduct E p s k l d + K2 * m i * m j * fourProduct E p s k l d

theorem pairAverage_add {q1 q2 q3 q4 : ℝ} {f g : ℝ → ℝ} (hf : Continuous f) (hg : Continuous g) :
    pairAverage q1 q2 q3 q4 (fun d => f d + g d)
      = pairAverage q1 q2 q3 q4 f + pairAverage q1 q2 q3 q4 g := by
  unfold pairAverage
  split_ifs with h
  · rw [intervalIntegral.integral_add (hf.intervalIntegrable _ _) (hg.intervalIntegrable _ _)]; ring
  · ring

theorem pairAverage_mul (q1 q2 q3 q4 c : ℝ) (f : ℝ → ℝ) :
    pairAverage q1 q2 q3 q4 (fun d => c * f d) = c * pairAverage q1 q2 q3 q4 f := by
  unfold pairAverage
  split_ifs with h
  · rw [intervalIntegral.integral_const_mul]; ring
  · ring

theorem pairAverage_pairs (q1 q2 q3 q4 : ℝ) (f : ℝ → ℝ) :
    pairAverage q1 q2 q3 q4 f = pairAverage q3 q4 q1 q2 f := by
  unfold pairAverage
  rw [max_comm, min_comm]

@[fun_prop]
theorem continuous_dot (a b : ℝ) : Continuous (dot a b) := by unfold dot; fun_prop

theorem prod_order (σ : Equiv.Perm (Fin 4)) (E : Fin 4 → ℝ) :
    E 0 * E 1 * E 2 * E 3 = E (σ 0) * E (σ 1) * E (σ 2) * E (σ 3) := by
  have := Equiv.prod_comp σ E
  rw [Fin.prod_univ_four, Fin.prod_univ_four] at this
  exact this.symm

/-- **C63.** For every index order, sides, couplings, masses, energies and non-negative momenta the
kernel is the average of the squared amplitude over the configurations conserving momentum. -/
theorem C63_average (p E m : Fin 4 → ℝ) (K1 K2 : ℝ) (σ : Equiv.Perm (Fin 4)) (s : Fin 4 → ℤ)
    (hp : ∀ i, 0 ≤ p i) :
    D p E m K1 K2 σ s = pairAverage (p (σ 0)) (p (σ 1)) (p (σ 2)) (p (σ 3))
      (amplitude E p m s K1 K2 (σ 0) (σ 1) (σ 2) (σ 3)) := by
  rw [D_eq, prod_order σ E]
  rw [← C36_symmetric σ p, ← C38_symmetric σ p hp, C36_integral (hp _) (hp _) (hp _) (hp _),
    C38_integral (hp _) (hp _) (hp _) (hp _), C37_integral (hp _) (hp _) (hp _) (hp _),
    C37_integral (hp _) (hp _) (hp _) (hp _), pairAverage_pairs (p (σ 2))]
  set A := pairAverage (p (σ 0)) (p (σ 1)) (p (σ 2)) (p (σ 3)) with hA
  have e : amplitude E p m s K1 K2 (σ 0) (σ 1) (σ 2) (σ 3) = fun d =>
      (K1 * (E (σ 0) * E (σ 1) * E (σ 2) * E (σ 3)) + K2 * m (σ 0) * m (σ 1) * (E (σ 2) * E (σ 3))) * 1
      + ((K1 * (s (σ 0) * s (σ 1) * s (σ 2) * s (σ 3)))
          * (dot (p (σ 0)) (p (σ 1)) d * dot (p (σ 2)) (p (σ 3)) d)
      + ((K1 * (E (σ 0) * E (σ 1) * (s (σ 2) * s (σ 3))) + K2 * m (σ 0) * m (σ 1) * (s (σ 2) * s (σ 3)))
          * (-dot (p (σ 2)) (p (σ 3)) d)
      + (K1 * (E (σ 2) * E (σ 3) * (s (σ 0) * s (σ 1)))) * (-dot (p (σ 0)) (p (σ 1)) d))) := by
    funext d; unfold amplitude fourProduct; ring
  rw [e, hA, pairAverage_add (by fun_prop) (by fun_prop), pairAverage_add (by fun_prop) (by fun_prop),
    pairAverage_add (by fun_prop) (by fun_prop), pairAverage_mul, pairAverage_mul, pairAverage_mul,
    pairAverage_mul]
  ring

/-- The scalar product obeys the Cauchy–Schwarz bound on the allowed interval. -/
theorem dot_bound {a b d : ℝ} (h1 : |a - b| ≤ d) (h2 : d ≤ a + b) : |dot a b d| ≤ a * b := by
  have h0 := (abs_nonneg _).trans h1
  have e1 : (a - b) ^ 2 ≤ d ^ 2 := by rw [← sq_abs (a - b)]; exact pow_le_pow_left₀ (abs_nonneg _) h1 2
  have e2 : d ^ 2 ≤ (a + b) ^ 2 := pow_le_pow_left₀ h0 h2 2
  unfold dot
  rw [abs_le]
  constructor <;> nlinarith

theorem fourProduct_nonneg {E p : Fin 4 → ℝ} {s : Fin 4 → ℤ} {i j : Fin 4} {d : ℝ}
    (hs : ∀ i, s i = 1 ∨ s i = -1) (hp : ∀ i, 0 ≤ p i) (hE : ∀ i, p i ≤ E i)
    (h1 : |p i - p j| ≤ d) (h2 : d ≤ p i + p j) : 0 ≤ fourProduct E p s i j d := by
  have hb := dot_bound h1 h2
  have hm : p i * p j ≤ E i * E j := mul_le_mul (hE i) (hE j) (hp j) ((hp i).trans (hE i))
  obtain ⟨b1, b2⟩ := abs_le.mp hb
  unfold fourProduct
  rcases hs i with h | h <;> rcases hs j with g | g <;> rw [h, g] <;> push_cast <;> linarith

/-- **C63.** Consequently the kernel is non-negative for physical energies and non-negative
couplings, although `D2` and `D3` are not. -/
theorem C63_nonneg (p E m : Fin 4 → ℝ) (K1 K2 : ℝ) (σ : Equiv.Perm (Fin 4)) (s : Fin 4 → ℤ)
    (hs : ∀ i, s i = 1 ∨ s i = -1) (hp : ∀ i, 0 ≤ p i) (hE : ∀ i, p i ≤ E i) (hm : ∀ i, 0 ≤ m i)
    (h1 : 0 ≤ K1) (h2 : 0 ≤ K2) : 0 ≤ D p E m K1 K2 σ s := by
  rw [C63_average p E m K1 K2 σ s hp]
  unfold pairAverage
  split_ifs with h
  · refine mul_nonneg (by norm_num) (intervalIntegral.integral_nonneg h ?_)
    intro d hd
    obtain ⟨g1, g2⟩ := hd
    have a1 := (le_max_left _ _).trans g1
    have a2 := (le_max_right _ _).trans g1
    have b1 := g2.trans (min_le_left _ _)
    have b2 := g2.trans (min_le_right _ _)
    have f1 := fourProduct_nonneg hs hp hE a1 b1
    have f2 := fourProduct_nonneg hs hp hE a2 b2
    unfold amplitude
    have := hm (σ 0)
    have := hm (σ 1)
    positivity
  · exact le_rfl

/-- **C63.** The same for the zero-momentum kernel of a massive particle. -/
theorem C63_Db_nonneg (p E m : Fin 4 → ℝ) (K1 K2 : ℝ) (σ : Equiv.Perm (Fin 4)) (s : Fin 4 → ℤ)
    (hs : ∀ i, s i = 1 ∨ s i = -1) (hp : ∀ i, i ≠ 0 → 0 ≤ p i) (hE : ∀ i, i ≠ 0 → p i ≤ E i)
    (hm : ∀ i, 0 ≤ m i) (hm0 : 0 < m 0)
    (h1 : 0 ≤ K1) (h2 : 0 ≤ K2) : 0 ≤ Db p E m K1 K2 σ s := by
  refine ge_of_tendsto (C39_massive_no_jump p E m K1 K2 σ s hp hm0) ?_
  filter_upwards [eventually_pos] with x hx
  refine div_nonneg (C63_nonneg _ _ m K1 K2 σ s hs ?_ ?_ hm h1 h2) (by positivity)
  · intro i
    by_cases hi : i = 0
    · subst hi; simpa using hx.le
    · simpa [hi] using hp i hi
  · intro i
    by_cases hi : i = 0
    · subst hi
      simp only [Function.update_self]
      exact Real.le_sqrt_of_sq_le (by nlinarith [sq_nonneg (m 0)])
    · simpa [hi] using hE i hi

/-- **C63.** No contribution from momenta that cannot be conserved. -/
theorem C63_support (p E m : Fin 4 → ℝ) (K1 K2 : ℝ) (σ : Equiv.Perm (Fin 4)) (s : Fin 4 → ℤ)
    (hp : ∀ i, 0 ≤ p i) (hf : Forbidden (p 0) (p 1) (p 2) (p 3)) : D p E m K1 K2 σ s = 0 := by
  have hf' : Forbidden (p (σ 0)) (p (σ 1)) (p (σ 2)) (p (σ 3)) := by
    have hall : ∃ i, ∑ j, p j < 2 * p i := by
      unfold Forbidden at hf
      rcases hf with h | h | h | h
      · exact ⟨0, by rw [Fin.sum_univ_four]; linarith⟩
      · exact ⟨1, by rw [Fin.sum_univ_four]; linarith⟩
      · exact ⟨2, by rw [Fin.sum_univ_four]; linarith⟩
      · exact ⟨3, by rw [Fin.sum_univ_four]; linarith⟩
    obtain ⟨i, hi⟩ := hall
    rw [← Equiv.sum_comp σ p, Fin.sum_univ_four] at hi
    obtain ⟨a, rfl⟩ := σ.surjective i
    unfold Forbidden
    fin_cases a
    · left; simp only [Fin.isValue, Fin.zero_eta] at hi; linarith
    · right; left; simp only [Fin.isValue, Fin.mk_one] at hi; linarith
    · right; right; left; simp only [Fin.isValue, Fin.reduceFinMk] at hi; linarith
    · right; right; right; simp only [Fin.isValue, Fin.reduceFinMk] at hi; linarith
  rw [C63_average p E m K1 K2 σ s hp]
  unfold pairAverage
  have := (forbidden_iff (hp _) (hp _) (hp _) (hp _)).mp hf'
  unfold exLo at this
  rw [if_neg (not_le.mpr this)]

/-- A massless four-fermion interaction with strictly positive kernel. -/
example : D ![3, 1, 2, 2] ![3, 1, 2, 2] 0 1 0 (Equiv.refl _) ![-1, -1, 1, 1] = 212 / 15 := by
  have h1 : exLo 3 1 2 2 = 2 := by unfold exLo; norm_num [abs_of_pos]
  have h2 : exHi 3 1 2 2 = 4 := by unfold exHi; rw [h1]; norm_num
  have d1 : D1 3 1 2 2 = 1 := by
    rw [D1_overlap (by norm_num) (by norm_num) (by norm_num) (by norm_num), h1, h2]; norm_num
  have d3 : D3 3 1 2 2 = 14 / 5 := by
    rw [D3_overlap (by norm_num) (by norm_num) (by norm_num) (by norm_num), h1, h2]; norm_num
  rw [D_eq]
  change 1 * ((3:ℝ) * 1 * 2 * 2 * D1 3 1 2 2 + ((-1:ℤ):ℝ) * ((-1:ℤ):ℝ) * ((1:ℤ):ℝ) * ((1:ℤ):ℝ) * D3 3 1 2 2
    + 3 * 1 * (((1:ℤ):ℝ) * ((1:ℤ):ℝ)) * D2 3 1 2 2
    + 2 * 2 * (((-1:ℤ):ℝ) * ((-1:ℤ):ℝ)) * D2 2 2 3 1) + 0 * _ * _ * _ = _
  rw [C37_not_pair_exchange_symmetric.1, C37_not_pair_exchange_symmetric.2, d1, d3]
  norm_num

end PyBBN
