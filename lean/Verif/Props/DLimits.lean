import Verif.Lemmas.DLimits
/-!
# C39: the zero-momentum kernels are the limits of the general ones
-/
namespace PyBBN

open Filter Topology

/-- **C39.** `Db1` is the limit of `D1(p₀, ..)/p₀`. -/
theorem C39_Db1_limit {a b c : ℝ} (ha : 0 ≤ a) (hb : 0 ≤ b) (hc : 0 ≤ c) :
    Tendsto (fun x => D1 x a b c / x) (𝓝[>] 0) (𝓝 (Db1 a b c)) := D1_limit ha hb hc

/-- **C39.** `Db2` is the limit of `D2(p₀, ..)/p₀`. -/
theorem C39_Db2_limit {a b c : ℝ} (ha : 0 ≤ a) (hb : 0 ≤ b) (hc : 0 ≤ c) :
    Tendsto (fun x => D2 x a b c / x) (𝓝[>] 0) (𝓝 (Db2 a b c)) := D2_limit ha hb hc

/-- `D` without the `K ≠ 0` guards. -/
theorem D_eq (p E m : Fin 4 → ℝ) (K1 K2 : ℝ) (o : Fin 4 → Fin 4) (s : Fin 4 → ℤ) :
    D p E m K1 K2 o s =
      K1 * (E 0 * E 1 * E 2 * E 3 * D1 (p 0) (p 1) (p 2) (p 3)
        + s (o 0) * s (o 1) * s (o 2) * s (o 3) * D3 (p 0) (p 1) (p 2) (p 3)
        + E (o 0) * E (o 1) * (s (o 2) * s (o 3)) * D2 (p (o 0)) (p (o 1)) (p (o 2)) (p (o 3))
        + E (o 2) * E (o 3) * (s (o 0) * s (o 1)) * D2 (p (o 2)) (p (o 3)) (p (o 0)) (p (o 1)))
      + K2 * m (o 0) * m (o 1) * (E (o 2) * E (o 3) * D1 (p 0) (p 1) (p 2) (p 3)
        + s (o 2) * s (o 3) * D2 (p (o 0)) (p (o 1)) (p (o 2)) (p (o 3))) := by
  unfold D
  simp only []
  by_cases h1 : K1 = 0 <;> by_cases h2 : K2 = 0 <;> simp [h1, h2] <;> ring

theorem Db_eq_fst (p E m : Fin 4 → ℝ) (K1 K2 : ℝ) (o : Fin 4 → Fin 4) (s : Fin 4 → ℤ)
    (h : (o 0).val * (o 1).val = 0) :
    Db p E m K1 K2 o s =
      K1 * (E 1 * E 2 * E 3 * Db1 (p 1) (p 2) (p 3)
        + s (o 2) * s (o 3) * E (o 0 + o 1) * Db2 (p (o 0 + o 1)) (p (o 2)) (p (o 3)))
      + K2 * (m (o 0 + o 1) * (E (o 2) * E (o 3) * Db1 (p 1) (p 2) (p 3)
        + s (o 2) * s (o 3) * Db2 (p (o 0 + o 1)) (p (o 2)) (p (o 3)))) := by
  unfold Db
  simp only [h, if_true]
  by_cases h1 : K1 = 0 <;> by_cases h2 : K2 = 0 <;> simp [h1, h2]

theorem Db_eq_snd (p E m : Fin 4 → ℝ) (K1 K2 : ℝ) (o : Fin 4 → Fin 4) (s : Fin 4 → ℤ)
    (h : (o 0).val * (o 1).val ≠ 0) (h' : (o 2).val * (o 3).val = 0) :
    Db p E m K1 K2 o s =
      K1 * (E 1 * E 2 * E 3 * Db1 (p 1) (p 2) (p 3)
        + s (o 0) * s (o 1) * E (o 2 + o 3) * Db2 (p (o 2 + o 3)) (p (o 0)) (p (o 1)))
      + K2 * (m (o 0) * m (o 1) * E (o 2 + o 3) * Db1 (p 1) (p 2) (p 3)) := by
  unfold Db
  simp only [h', if_true, if_neg h]
  by_cases h1 : K1 = 0 <;> by_cases h2 : K2 = 0 <;> simp [h1, h2]

/-- The four positions of the particle with vanishing momentum in the index order. -/
theorem order_cases (σ : Equiv.Perm (Fin 4)) :
    (σ 0 = 0 ∧ σ 1 ≠ 0 ∧ σ 2 ≠ 0 ∧ σ 3 ≠ 0) ∨ (σ 1 = 0 ∧ σ 0 ≠ 0 ∧ σ 2 ≠ 0 ∧ σ 3 ≠ 0) ∨
    (σ 2 = 0 ∧ σ 0 ≠ 0 ∧ σ 1 ≠ 0 ∧ σ 3 ≠ 0) ∨ (σ 3 = 0 ∧ σ 0 ≠ 0 ∧ σ 1 ≠ 0 ∧ σ 2 ≠ 0) := by
  have key : ∀ a b : Fin 4, σ a = 0 → a ≠ b → σ b ≠ 0 := fun a b h hab hb =>
    hab (σ.injective (h.trans hb.symm))
  obtain ⟨a, ha⟩ := σ.surjective 0
  fin_cases a
  · exact Or.inl ⟨ha, key 0 1 ha (by decide), key 0 2 ha (by decide), key 0 3 ha (by decide)⟩
  · exact Or.inr (Or.inl ⟨ha, key 1 0 ha (by decide), key 1 2 ha (by decide), key 1 3 ha (by decide)⟩)
  · exact Or.inr (Or.inr (Or.inl
      ⟨ha, key 2 0 ha (by decide), key 2 1 ha (by decide), key 2 3 ha (by decide)⟩))
  · exact Or.inr (Or.inr (Or.inr
      ⟨ha, key 3 0 ha (by decide), key 3 1 ha (by decide), key 3 2 ha (by decide)⟩))

/-- Assembly of the limits of the separate kernels. -/
theorem assemble {f1 f3 fa fb e : ℝ → ℝ} {l1 la m0 : ℝ} (hm : m0 ≠ 0)
    (h1 : Tendsto f1 (𝓝[>] 0) (𝓝 l1)) (h3 : Tendsto f3 (𝓝[>] 0) (𝓝 0))
    (ha : Tendsto fa (𝓝[>] 0) (𝓝 la)) (hb : Tendsto fb (𝓝[>] 0) (𝓝 0))
    (he : Tendsto e (𝓝[>] 0) (𝓝 m0)) (A B C F G H : ℝ) :
    Tendsto (fun x => A * f1 x + B * (f1 x / e x) + C * (f3 x / e x) + F * fa x
      + G * (fa x / e x) + H * (fb x / e x)) (𝓝[>] 0)
      (𝓝 (A * l1 + B * (l1 / m0) + F * la + G * (la / m0))) := by
  have := (((((h1.const_mul A).add ((h1.div he hm).const_mul B)).add
    ((h3.div he hm).const_mul C)).add (ha.const_mul F)).add ((ha.div he hm).const_mul G)).add
    ((hb.div he hm).const_mul H)
  have e : A * l1 + B * (l1 / m0) + C * (0 / m0) + F * la + G * (la / m0) + H * (0 / m0) =
    A * l1 + B * (l1 / m0) + F * la + G * (la / m0) := by ring
  rw [e] at this
  exact this.congr fun x => by simp only [Pi.div_apply]

theorem sqrt_tendsto (m0 : ℝ) (h : 0 ≤ m0) :
    Tendsto (fun x : ℝ => √(x ^ 2 + m0 ^ 2)) (𝓝[>] 0) (𝓝 m0) :=
  tendsto_right_of_eq (g := fun x : ℝ => √(x ^ 2 + m0 ^ 2)) (by fun_prop)
    (by simp [Real.sqrt_sq h]) (Eventually.of_forall fun _ => rfl)

/-- **C39.** The kernel of the collision integrand has no jump at zero momentum of a massive first
particle: `D/(p₀E₀) → Db` for every index order, sides, couplings, masses, energies of the other
particles and non-negative momenta of the other particles. -/
theorem C39_massive_no_jump (p E m : Fin 4 → ℝ) (K1 K2 : ℝ) (σ : Equiv.Perm (Fin 4))
    (s : Fin 4 → ℤ) (hp : ∀ i, i ≠ 0 → 0 ≤ p i) (hm : 0 < m 0) :
    Tendsto (fun x => D (Function.update p 0 x) (Function.update E 0 √(x ^ 2 + m 0 ^ 2)) m K1 K2 σ s
        / (x * √(x ^ 2 + m 0 ^ 2))) (𝓝[>] 0) (𝓝 (Db p E m K1 K2 σ s)) := by
  have u0 : ∀ (q : Fin 4 → ℝ) (x : ℝ), Function.update q 0 x 0 = x := fun q x => by simp
  have un : ∀ (q : Fin 4 → ℝ) (x : ℝ) (i : Fin 4), i ≠ 0 → Function.update q 0 x i = q i :=
    fun q x i h => by simp [h]
  have epos : ∀ x : ℝ, 0 < √(x ^ 2 + m 0 ^ 2) := fun x => Real.sqrt_pos.mpr (by positivity)
  have t1 := D1_limit (hp 1 (by decide)) (hp 2 (by decide)) (hp 3 (by decide))
  have t3 := D3_limit (hp 1 (by decide)) (hp 2 (by decide)) (hp 3 (by decide))
  have te := sqrt_tendsto (m 0) hm.le
  rcases order_cases σ with ⟨h0, h1, h2, h3⟩ | ⟨h0, h1, h2, h3⟩ | ⟨h0, h1, h2, h3⟩ | ⟨h0, h1, h2, h3⟩
  · have ta := D2_limit (hp _ h1) (hp _ h2) (hp _ h3)
    have tb := D2_limit' (hp _ h1) (hp _ h2) (hp _ h3)
    rw [Db_eq_fst _ _ _ _ _ _ _ (by simp [h0])]
    have := assemble hm.ne' t1 t3 ta tb te (K1 * (E 1 * E 2 * E 3))
      (K2 * m 0 * m (σ 1) * (E (σ 2) * E (σ 3)))
      (K1 * (s (σ 0) * s (σ 1) * s (σ 2) * s (σ 3))) (K1 * (E (σ 1) * (s (σ 2) * s (σ 3))))
      (K2 * m 0 * m (σ 1) * (s (σ 2) * s (σ 3))) (K1 * (E (σ 2) * E (σ 3) * (s (σ 0) * s (σ 1))))
    rw [h0, zero_add]
    have e : ∀ y z : ℝ, y = z → 𝓝 y = 𝓝 z := fun y z h => by rw [h]
    refine (Tendsto.congr' ?_ this).trans (le_of_eq (e _ _ ?_))
    · filter_upwards [eventually_pos] with x hx
      rw [D_eq]
      simp only [h0, u0, un _ _ _ h1, un _ _ _ h2, un _ _ _ h3, un _ _ 1 (by decide),
        un _ _ 2 (by decide), un _ _ 3 (by decide)]
      have := (epos x).ne'
      field_simp
      ring
    · field_simp
      ring
  · have ta := D2_limit (hp _ h1) (hp _ h2) (hp _ h3)
    have tb := D2_limit' (hp _ h1) (hp _ h2) (hp _ h3)
    rw [Db_eq_fst _ _ _ _ _ _ _ (by simp [h0])]
    have := assemble hm.ne' t1 t3 ta tb te (K1 * (E 1 * E 2 * E 3))
      (K2 * m 0 * m (σ 0) * (E (σ 2) * E (σ 3)))
      (K1 * (s (σ 0) * s (σ 1) * s (σ 2) * s (σ 3))) (K1 * (E (σ 0) * (s (σ 2) * s (σ 3))))
      (K2 * m 0 * m (σ 0) * (s (σ 2) * s (σ 3))) (K1 * (E (σ 2) * E (σ 3) * (s (σ 0) * s (σ 1))))
    rw [h0, add_zero]
    have e : ∀ y z : ℝ, y = z → 𝓝 y = 𝓝 z := fun y z h => by rw [h]
    refine (Tendsto.congr' ?_ this).trans (le_of_eq (e _ _ ?_))
    · filter_upwards [eventually_pos] with x hx
      rw [D_eq]
      simp only [h0, u0, un _ _ _ h1, un _ _ _ h2, un _ _ _ h3, un _ _ 1 (by decide),
        un _ _ 2 (by decide), un _ _ 3 (by decide)]
      rw [D2_swap12 (p (σ 0)) x, D2_swap34 (p (σ 2)) (p (σ 3)) (p (σ 0)) x]
      have := (epos x).ne'
      field_simp
      ring
    · field_simp
      ring
  · have ta := D2_limit (hp _ h3) (hp _ h1) (hp _ h2)
    have tb := D2_limit' (hp _ h3) (hp _ h1) (hp _ h2)
    rw [Db_eq_snd _ _ _ _ _ _ _ (by simp [h1, h2]) (by simp [h0])]
    have := assemble hm.ne' t1 t3 ta tb te (K1 * (E 1 * E 2 * E 3) + K2 * m (σ 0) * m (σ 1) * E (σ 3))
      0 (K1 * (s (σ 0) * s (σ 1) * s (σ 2) * s (σ 3))) (K1 * (E (σ 3) * (s (σ 0) * s (σ 1)))) 0
      (K1 * (E (σ 0) * E (σ 1) * (s (σ 2) * s (σ 3))) + K2 * m (σ 0) * m (σ 1) * (s (σ 2) * s (σ 3)))
    rw [h0, zero_add]
    have e : ∀ y z : ℝ, y = z → 𝓝 y = 𝓝 z := fun y z h => by rw [h]
    refine (Tendsto.congr' ?_ this).trans (le_of_eq (e _ _ ?_))
    · filter_upwards [eventually_pos] with x hx
      rw [D_eq]
      simp only [h0, u0, un _ _ _ h1, un _ _ _ h2, un _ _ _ h3, un _ _ 1 (by decide),
        un _ _ 2 (by decide), un _ _ 3 (by decide)]
      have := (epos x).ne'
      field_simp
      ring
    · ring
  · have ta := D2_limit (hp _ h3) (hp _ h1) (hp _ h2)
    have tb := D2_limit' (hp _ h3) (hp _ h1) (hp _ h2)
    rw [Db_eq_snd _ _ _ _ _ _ _ (by simp [h1, h2]) (by simp [h0])]
    have := assemble hm.ne' t1 t3 ta tb te (K1 * (E 1 * E 2 * E 3) + K2 * m (σ 0) * m (σ 1) * E (σ 2))
      0 (K1 * (s (σ 0) * s (σ 1) * s (σ 2) * s (σ 3))) (K1 * (E (σ 2) * (s (σ 0) * s (σ 1)))) 0
      (K1 * (E (σ 0) * E (σ 1) * (s (σ 2) * s (σ 3))) + K2 * m (σ 0) * m (σ 1) * (s (σ 2) * s (σ 3)))
    rw [h0, add_zero]
    have e : ∀ y z : ℝ, y = z → 𝓝 y = 𝓝 z := fun y z h => by rw [h]
    refine (Tendsto.congr' ?_ this).trans (le_of_eq (e _ _ ?_))
    · filter_upwards [eventually_pos] with x hx
      rw [D_eq]
      simp only [h0, u0, un _ _ _ h1, un _ _ _ h2, un _ _ _ h3, un _ _ 1 (by decide),
        un _ _ 2 (by decide), un _ _ 3 (by decide)]
      rw [D2_swap34 (p (σ 0)) (p (σ 1)) (p (σ 2)) x, D2_swap12 (p (σ 2)) x]
      have := (epos x).ne'
      field_simp
      ring
    · ring

/-- **C39, refuted for massless first particles.** With `m₀ = 0` the mass term of the general kernel
vanishes at every positive momentum when particle 0 is one of the first two indices, … -/
theorem C39_massless_term_absent (p E m : Fin 4 → ℝ) (K2 : ℝ) (o : Fin 4 → Fin 4)
    (s : Fin 4 → ℤ) (hm : m 0 = 0) (h : o 0 = 0 ∨ o 1 = 0) : D p E m 0 K2 o s = 0 := by
  rw [D_eq]
  rcases h with h | h <;> simp [h, hm]

/-- … but not in the zero-momentum kernel: the integrand jumps. -/
theorem C39_massless_jump :
    ∃ (p E m : Fin 4 → ℝ) (K2 : ℝ) (s : Fin 4 → ℤ), m 0 = 0 ∧ (∀ i, i ≠ 0 → 0 ≤ p i) ∧
      (∀ i, i ≠ 0 → E i = √(p i ^ 2 + m i ^ 2)) ∧
      (∀ x : ℝ, D (Function.update p 0 x) (Function.update E 0 √(x ^ 2 + m 0 ^ 2)) m 0 K2 id s
        / (x * √(x ^ 2 + m 0 ^ 2)) = 0) ∧ Db p E m 0 K2 id s = 3 / 2 := by
  refine ⟨![0, 1, 1, 1], ![0, √2, 1, 1], ![0, 1, 0, 0], 1, ![-1, -1, 1, 1], rfl, ?_, ?_, ?_, ?_⟩
  · intro i hi
    fin_cases i <;> simp
  · intro i hi
    fin_cases i
    · exact absurd rfl hi
    · norm_num
    · norm_num
    · simp
  · intro x
    rw [C39_massless_term_absent _ _ _ _ _ _ rfl (Or.inl rfl), zero_div]
  · rw [Db_eq_fst _ _ _ _ _ _ _ (by simp)]
    simp only [id, zero_add]
    simp only [show (![0, 1, 1, 1] : Fin 4 → ℝ) 1 = 1 from rfl,
      show (![0, 1, 1, 1] : Fin 4 → ℝ) 2 = 1 from rfl, show (![0, 1, 1, 1] : Fin 4 → ℝ) 3 = 1 from rfl,
      show (![0, √2, 1, 1] : Fin 4 → ℝ) 2 = 1 from rfl,
      show (![0, √2, 1, 1] : Fin 4 → ℝ) 3 = 1 from rfl,
      show (![0, 1, 0, 0] : Fin 4 → ℝ) 1 = 1 from rfl,
      show (![-1, -1, 1, 1] : Fin 4 → ℤ) 2 = 1 from rfl,
      show (![-1, -1, 1, 1] : Fin 4 → ℤ) 3 = 1 from rfl]
    rw [Db2_eq (by simp) (by simp) (by simp), Db1_eq]
    norm_num [sgn]

theorem assemble0 {f1 f3 fa fb : ℝ → ℝ} {l1 la : ℝ}
    (h1 : Tendsto f1 (𝓝[>] 0) (𝓝 l1)) (h3 : Tendsto f3 (𝓝[>] 0) (𝓝 0))
    (ha : Tendsto fa (𝓝[>] 0) (𝓝 la)) (hb : Tendsto fb (𝓝[>] 0) (𝓝 0)) (A C F H : ℝ) :
    Tendsto (fun x => A * f1 x + C * f3 x + F * fa x + H * fb x) (𝓝[>] 0) (𝓝 (A * l1 + F * la)) := by
  have := (((h1.const_mul A).add (h3.const_mul C)).add (ha.const_mul F)).add (hb.const_mul H)
  rwa [show A * l1 + C * 0 + F * la + H * 0 = A * l1 + F * la by ring] at this

/-- **C39.** For a massless first particle there is no jump either, provided the mass term does not
involve particle 0 (or is absent) and no momentum equals the sum or the difference of the other
two. -/
theorem C39_massless_no_jump_partial (p E m : Fin 4 → ℝ) (K1 K2 : ℝ) (σ : Equiv.Perm (Fin 4))
    (s : Fin 4 → ℤ) (hp : ∀ i, i ≠ 0 → 0 ≤ p i) (hm : m 0 = 0)
    (hK : K2 = 0 ∨ (σ 0 ≠ 0 ∧ σ 1 ≠ 0))
    (hnd : ∀ i j k : Fin 4, i ≠ 0 → j ≠ 0 → k ≠ 0 → i ≠ j → j ≠ k → i ≠ k → p i ≠ p j + p k) :
    Tendsto (fun x => D (Function.update p 0 x) (Function.update E 0 √(x ^ 2 + m 0 ^ 2)) m K1 K2 σ s
        / (x * √(x ^ 2 + m 0 ^ 2))) (𝓝[>] 0) (𝓝 (Db p E m K1 K2 σ s)) := by
  have u0 : ∀ (q : Fin 4 → ℝ) (x : ℝ), Function.update q 0 x 0 = x := fun q x => by simp
  have un : ∀ (q : Fin 4 → ℝ) (x : ℝ) (i : Fin 4), i ≠ 0 → Function.update q 0 x i = q i :=
    fun q x i h => by simp [h]
  have es : ∀ x : ℝ, 0 < x → √(x ^ 2 + m 0 ^ 2) = x := fun x hx => by
    rw [hm]; simp [Real.sqrt_sq hx.le]
  have nd : ∀ i j k : Fin 4, i ≠ 0 → j ≠ 0 → k ≠ 0 → i ≠ j → j ≠ k → i ≠ k →
      p i ≠ |p j - p k| ∧ p i ≠ p j + p k := by
    intro i j k hi hj hk hij hjk hik
    refine ⟨?_, hnd i j k hi hj hk hij hjk hik⟩
    intro h
    rcases le_total (p j) (p k) with g | g
    · rw [abs_of_nonpos (by linarith)] at h
      exact hnd k i j hk hi hj hik.symm hij hjk.symm (by linarith)
    · rw [abs_of_nonneg (by linarith)] at h
      exact hnd j i k hj hi hk hij.symm hik hjk (by linarith)
  have nσ : ∀ i j : Fin 4, i ≠ j → σ i ≠ σ j := fun i j h g => h (σ.injective g)
  have t1 := D1_limit (hp 1 (by decide)) (hp 2 (by decide)) (hp 3 (by decide))
  have n123 := nd 1 2 3 (by decide) (by decide) (by decide) (by decide) (by decide) (by decide)
  have t3 := D3_limit_sq (hp 1 (by decide)) (hp 2 (by decide)) (hp 3 (by decide)) n123.1 n123.2
  have e : ∀ y z : ℝ, y = z → 𝓝 y = 𝓝 z := fun y z h => by rw [h]
  rcases order_cases σ with ⟨h0, h1, h2, h3⟩ | ⟨h0, h1, h2, h3⟩ | ⟨h0, h1, h2, h3⟩ | ⟨h0, h1, h2, h3⟩
  · have hK : K2 = 0 := hK.resolve_right fun h => h.1 h0
    have n := nd _ _ _ h1 h2 h3 (nσ _ _ (by decide)) (nσ _ _ (by decide)) (nσ _ _ (by decide))
    have ta := D2_limit (hp _ h1) (hp _ h2) (hp _ h3)
    have tb := D2_limit_sq' (hp _ h1) (hp _ h2) (hp _ h3) n.1 n.2
    rw [Db_eq_fst _ _ _ _ _ _ _ (by simp [h0])]
    have := assemble0 t1 t3 ta tb (K1 * (E 1 * E 2 * E 3))
      (K1 * (s (σ 0) * s (σ 1) * s (σ 2) * s (σ 3))) (K1 * (E (σ 1) * (s (σ 2) * s (σ 3))))
      (K1 * (E (σ 2) * E (σ 3) * (s (σ 0) * s (σ 1))))
    rw [h0, zero_add]
    refine (Tendsto.congr' ?_ this).trans (le_of_eq (e _ _ ?_))
    · filter_upwards [eventually_pos] with x hx
      rw [D_eq, es x hx, hK]
      simp only [h0, u0, un _ _ _ h1, un _ _ _ h2, un _ _ _ h3, un _ _ 1 (by decide),
        un _ _ 2 (by decide), un _ _ 3 (by decide)]
      field_simp
      ring
    · rw [hK]; ring
  · have hK : K2 = 0 := hK.resolve_right fun h => h.2 h0
    have n := nd _ _ _ h1 h2 h3 (nσ _ _ (by decide)) (nσ _ _ (by decide)) (nσ _ _ (by decide))
    have ta := D2_limit (hp _ h1) (hp _ h2) (hp _ h3)
    have tb := D2_limit_sq' (hp _ h1) (hp _ h2) (hp _ h3) n.1 n.2
    rw [Db_eq_fst _ _ _ _ _ _ _ (by simp [h0])]
    have := assemble0 t1 t3 ta tb (K1 * (E 1 * E 2 * E 3))
      (K1 * (s (σ 0) * s (σ 1) * s (σ 2) * s (σ 3))) (K1 * (E (σ 0) * (s (σ 2) * s (σ 3))))
      (K1 * (E (σ 2) * E (σ 3) * (s (σ 0) * s (σ 1))))
    rw [h0, add_zero]
    refine (Tendsto.congr' ?_ this).trans (le_of_eq (e _ _ ?_))
    · filter_upwards [eventually_pos] with x hx
      rw [D_eq, es x hx, hK]
      simp only [h0, u0, un _ _ _ h1, un _ _ _ h2, un _ _ _ h3, un _ _ 1 (by decide),
        un _ _ 2 (by decide), un _ _ 3 (by decide)]
      rw [D2_swap12 (p (σ 0)) x, D2_swap34 (p (σ 2)) (p (σ 3)) (p (σ 0)) x]
      field_simp
      ring
    · rw [hK]; ring
  · have n := nd _ _ _ h3 h1 h2 (nσ _ _ (by decide)) (nσ _ _ (by decide)) (nσ _ _ (by decide))
    have ta := D2_limit (hp _ h3) (hp _ h1) (hp _ h2)
    have tb := D2_limit_sq' (hp _ h3) (hp _ h1) (hp _ h2) n.1 n.2
    rw [Db_eq_snd _ _ _ _ _ _ _ (by simp [h1, h2]) (by simp [h0])]
    have := assemble0 t1 t3 ta tb (K1 * (E 1 * E 2 * E 3) + K2 * m (σ 0) * m (σ 1) * E (σ 3))
      (K1 * (s (σ 0) * s (σ 1) * s (σ 2) * s (σ 3))) (K1 * (E (σ 3) * (s (σ 0) * s (σ 1))))
      (K1 * (E (σ 0) * E (σ 1) * (s (σ 2) * s (σ 3))) + K2 * m (σ 0) * m (σ 1) * (s (σ 2) * s (σ 3)))
    rw [h0, zero_add]
    refine (Tendsto.congr' ?_ this).trans (le_of_eq (e _ _ ?_))
    · filter_upwards [eventually_pos] with x hx
      rw [D_eq, es x hx]
      simp only [h0, u0, un _ _ _ h1, un _ _ _ h2, un _ _ _ h3, un _ _ 1 (by decide),
        un _ _ 2 (by decide), un _ _ 3 (by decide)]
      field_simp
      ring
    · ring
  · have n := nd _ _ _ h3 h1 h2 (nσ _ _ (by decide)) (nσ _ _ (by decide)) (nσ _ _ (by decide))
    have ta := D2_limit (hp _ h3) (hp _ h1) (hp _ h2)
    have tb := D2_limit_sq' (hp _ h3) (hp _ h1) (hp _ h2) n.1 n.2
    rw [Db_eq_snd _ _ _ _ _ _ _ (by simp [h1, h2]) (by simp [h0])]
    have := assemble0 t1 t3 ta tb (K1 * (E 1 * E 2 * E 3) + K2 * m (σ 0) * m (σ 1) * E (σ 2))
      (K1 * (s (σ 0) * s (σ 1) * s (σ 2) * s (σ 3))) (K1 * (E (σ 2) * (s (σ 0) * s (σ 1))))
      (K1 * (E (σ 0) * E (σ 1) * (s (σ 2) * s (σ 3))) + K2 * m (σ 0) * m (σ 1) * (s (σ 2) * s (σ 3)))
    rw [h0, add_zero]
    refine (Tendsto.congr' ?_ this).trans (le_of_eq (e _ _ ?_))
    · filter_upwards [eventually_pos] with x hx
      rw [D_eq, es x hx]
      simp only [h0, u0, un _ _ _ h1, un _ _ _ h2, un _ _ _ h3, un _ _ 1 (by decide),
        un _ _ 2 (by decide), un _ _ 3 (by decide)]
      rw [D2_swap34 (p (σ 0)) (p (σ 1)) (p (σ 2)) x, D2_swap12 (p (σ 2)) x]
      field_simp
      ring
    · ring

/-- Values of the zero-momentum kernels inside, on the edge of and outside the region. -/
example : Db1 1 1 1 = 1 ∧ Db1 2 1 1 = 1 / 2 ∧ Db1 3 1 1 = 0 ∧ Db2 1 1 1 = 1 / 2 := by
  rw [Db2_eq (by simp) (by simp) (by simp), Db1_eq, Db1_eq, Db1_eq]
  norm_num [sgn]

end PyBBN
