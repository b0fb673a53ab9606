import Verif.Props.BalanceStep
/-!
# C131: the collision term of a particle at rest

The loop of the three-particle integrals treats the momentum 0 apart, with another integrand and another constant
(three_particle/cpp/integral.cpp 290–311, 491–494, three_particle/__init__.py 89–97).  The entry so obtained is the
limit of the entries of slow particles.
-/
namespace PyBBN
open MeasureTheory Filter Topology

theorem rest_mass_pos {m0 m1 m2 : ℝ} (hm1 : 0 ≤ m1) (hm2 : 0 ≤ m2) (hopen : m1 + m2 < m0) :
    0 < restMomentum m0 m1 m2 := by
  have h0 : 0 < m0 := by linarith
  unfold restMomentum
  have a : 0 < m0 ^ 2 - (m1 + m2) ^ 2 := by nlinarith
  have b : 0 < m0 ^ 2 - (m1 - m2) ^ 2 := by nlinarith
  positivity

/-- The bounds of the loop tend to the recoil momentum of a particle at rest. -/
theorem bounds3_rest {m0 m1 m2 : ℝ} (hm0 : 0 < m0) (hm1 : 0 ≤ m1) (hm2 : 0 ≤ m2)
    (hopen : m1 + m2 ≤ m0 ∨ m0 + m1 ≤ m2) :
    ∀ t : ℝ, Tendsto (fun p0 => p1Bounds3 m0 m1 m2 p0 t 1) (𝓝[>] 0) (𝓝 (restMomentum m0 m1 m2)) := by
  intro t
  have e : (fun p0 => p1Bounds3 m0 m1 m2 p0 t 1) = fun p0 => (t * (p0 * (m2 ^ 2 - m1 ^ 2 - m0 ^ 2)) + 1 *
    √((p0 ^ 2 + m0 ^ 2) * (m1 ^ 4 + (m2 ^ 2 - m0 ^ 2) ^ 2 - 2 * m1 ^ 2 * (m2 ^ 2 + m0 ^ 2)))) /
    (2 * m0 ^ 2) := by
    funext p0
    exact p1Bounds3_eq _ _ _ _ _ _ (bounds3_rad_nonneg hm0.le hm1 hm2 hopen)
  rw [e]
  apply tendsto_nhdsWithin_of_tendsto_nhds
  have hc : Continuous fun p0 : ℝ => (t * (p0 * (m2 ^ 2 - m1 ^ 2 - m0 ^ 2)) + 1 *
    √((p0 ^ 2 + m0 ^ 2) * (m1 ^ 4 + (m2 ^ 2 - m0 ^ 2) ^ 2 - 2 * m1 ^ 2 * (m2 ^ 2 + m0 ^ 2)))) /
    (2 * m0 ^ 2) := by fun_prop
  have := hc.tendsto 0
  convert this using 2
  unfold restMomentum
  rw [show ((0 : ℝ) ^ 2 + m0 ^ 2) * (m1 ^ 4 + (m2 ^ 2 - m0 ^ 2) ^ 2 - 2 * m1 ^ 2 * (m2 ^ 2 + m0 ^ 2)) =
    m0 ^ 2 * ((m0 ^ 2 - (m1 + m2) ^ 2) * (m0 ^ 2 - (m1 - m2) ^ 2)) by ring, Real.sqrt_mul (sq_nonneg m0),
    Real.sqrt_sq hm0.le]
  field_simp
  ring

/-- Both limits of the loop tend to the momentum of the products of a decay at rest. -/
theorem limits3_rest {m0 m1 m2 : ℝ} (hm0 : 0 < m0) (hm1 : 0 ≤ m1) (hm2 : 0 ≤ m2)
    (hopen : m1 + m2 ≤ m0 ∨ m0 + m1 ≤ m2) :
    Tendsto (fun p0 => max (p1Bounds3 m0 m1 m2 p0 1 1) (-p1Bounds3 m0 m1 m2 p0 1 1)) (𝓝[>] 0)
      (𝓝 (restMomentum m0 m1 m2)) ∧
    Tendsto (fun p0 => p1Bounds3 m0 m1 m2 p0 (-1) 1) (𝓝[>] 0) (𝓝 (restMomentum m0 m1 m2)) := by
  have key := bounds3_rest hm0 hm1 hm2 hopen
  refine ⟨?_, key (-1)⟩
  have hk : 0 ≤ restMomentum m0 m1 m2 := by unfold restMomentum; positivity
  have := (key 1).max (key 1).neg
  rwa [max_eq_left (by linarith)] at this

section
variable {r : Fin 3 → Reactant} {f : Fin 3 → ℝ → ℝ}

/-- A decay of the first particle, or its creation together with the second by the third, above threshold. -/
def OpenRest (r : Fin 3 → Reactant) : Prop :=
  (r 1).side = 1 ∧ (r 1).specie.m + (r 2).specie.m ≤ (r 0).specie.m ∨
    (r 1).side = -1 ∧ (r 0).specie.m + (r 1).specie.m ≤ (r 2).specie.m

/-- Recoil momentum when the first particle is at rest. -/
theorem momentum_rest (s0 : (r 0).side = -1) (s2 : (r 2).side = 1)
    (hm0 : 0 < (r 0).specie.m) (hm1 : 0 ≤ (r 1).specie.m) (hm2 : 0 ≤ (r 2).specie.m)
    (hopen : OpenRest r) {k : ℝ}
    (hk : k = restMomentum (r 0).specie.m (r 1).specie.m (r 2).specie.m) :
    lastEnergy3 r 0 k = energy k (r 2).specie.m ∧ momenta3 r 0 k = ![0, k, k] := by
  have h0 : 0 ≤ k := by rw [hk]; unfold restMomentum; positivity
  have hl : lastEnergy3 r 0 k = energy k (r 2).specie.m :=
    (C65_rest r s0 s2 hm0 hm1 hm2 hopen k h0).mp (by rw [hk]; exact (restMomentum_eq _ _ _ hm0).symm)
  refine ⟨hl, ?_⟩
  unfold momenta3
  rw [hl, energy_sq, add_sub_cancel_right, Real.sqrt_sq h0]

/-- The occupation numbers met by a slow particle. -/
theorem netFlux_rest (s0 : (r 0).side = -1) (s2 : (r 2).side = 1)
    (hm0 : 0 < (r 0).specie.m) (hm1 : 0 ≤ (r 1).specie.m) (hm2 : 0 ≤ (r 2).specie.m)
    (hopen : OpenRest r) {k : ℝ}
    (hk : k = restMomentum (r 0).specie.m (r 1).specie.m (r 2).specie.m)
    (c0 : ContinuousWithinAt (f 0) (Set.Ici 0) 0) (c1 : ContinuousAt (f 1) k) (c2 : ContinuousAt (f 2) k) :
    Tendsto (fun x : ℝ × ℝ => netFlux r fun i => f i (momenta3 r x.1 x.2 i)) (𝓝[>] 0 ×ˢ 𝓝 k)
      (𝓝 (netFlux r fun i => f i (momenta3 r 0 k i))) := by
  obtain ⟨-, hmom⟩ := momentum_rest s0 s2 hm0 hm1 hm2 hopen hk
  have hle : 𝓝[>] (0 : ℝ) ×ˢ 𝓝 k ≤ 𝓝 ((0 : ℝ), k) := by
    rw [nhds_prod_eq]
    exact prod_mono nhdsWithin_le_nhds le_rfl
  have hi : ∀ i, Tendsto (fun x : ℝ × ℝ => f i (momenta3 r x.1 x.2 i)) (𝓝[>] 0 ×ˢ 𝓝 k)
      (𝓝 (f i (momenta3 r 0 k i))) := by
    rw [hmom]
    intro i
    fin_cases i
    · change Tendsto (fun x : ℝ × ℝ => f 0 x.1) _ (𝓝 (f 0 0))
      refine Tendsto.comp (g := f 0) (f := Prod.fst) (y := 𝓝[≥] 0) c0 ?_
      exact tendsto_fst.mono_right (nhdsWithin_mono _ Set.Ioi_subset_Ici_self)
    · change Tendsto (fun x : ℝ × ℝ => f 1 x.2) _ (𝓝 (f 1 k))
      exact Tendsto.comp (g := f 1) (f := Prod.snd) c1 tendsto_snd
    · change Tendsto (fun x : ℝ × ℝ => f 2 √(lastEnergy3 r x.1 x.2 ^ 2 - (r 2).specie.m ^ 2)) _ (𝓝 (f 2 k))
      refine Tendsto.comp (g := f 2) (f := fun x : ℝ × ℝ => √(lastEnergy3 r x.1 x.2 ^ 2 - (r 2).specie.m ^ 2)) c2 ?_
      have hc : Continuous fun x : ℝ × ℝ => √(lastEnergy3 r x.1 x.2 ^ 2 - (r 2).specie.m ^ 2) := by
        unfold lastEnergy3 energy; fun_prop
      have h := (hc.tendsto (0, k)).mono_left hle
      have e : √(lastEnergy3 r 0 k ^ 2 - (r 2).specie.m ^ 2) = k := congrFun hmom 2
      rw [e] at h
      exact h
  unfold netFlux flux
  refine Tendsto.sub ?_ ?_ <;>
  · refine tendsto_finset_prod _ fun i _ => ?_
    split_ifs
    · exact hi i
    · exact tendsto_const_nhds.sub (tendsto_const_nhds.mul (hi i))

/-- The integral of the loop for slow particles, for limits which tend to the recoil momentum. -/
theorem quad3_core (hs : ∀ i, (r i).side = 1 ∨ (r i).side = -1) (s0 : (r 0).side = -1) (hm0 : 0 < (r 0).specie.m)
    {k : ℝ} (hk0 : 0 ≤ k) (lo hi : ℝ → ℝ) (hlo : Tendsto lo (𝓝[>] 0) (𝓝 k)) (hhi : Tendsto hi (𝓝[>] 0) (𝓝 k))
    (hen : ∀ᶠ p0 in 𝓝[>] (0 : ℝ), 0 ≤ lo p0 ∧ lo p0 ≤ hi p0 ∧
      energyOf (r 1).specie.m (hi p0) - energyOf (r 1).specie.m (lo p0) = 2 * p0 * k / (r 0).specie.m ∧
      ∀ q, 0 < q → lo p0 < q → q < hi p0 → Ok3 r p0 q)
    (hocc : ∀ i p, 0 ≤ p → occAt (r i).specie p = .ok (f i p)) (hf0 : ∀ i p, 0 ≤ p → 0 ≤ f i p)
    (hf : ∀ i, Measurable (f i))
    (hG : Tendsto (fun x : ℝ × ℝ => netFlux r fun i => f i (momenta3 r x.1 x.2 i)) (𝓝[>] 0 ×ˢ 𝓝 k)
      (𝓝 (netFlux r fun i => f i (momenta3 r 0 k i)))) :
    Tendsto (fun p0 => ∫ q in lo p0..hi p0, valOf (integrandFull3 p0 q 0 r)) (𝓝[>] 0)
      (𝓝 (4 * k / (r 0).specie.m ^ 2 * netFlux r fun i => f i (momenta3 r 0 k i))) := by
  set Gs := netFlux r fun i => f i (momenta3 r 0 k i) with hGs
  set m0 := (r 0).specie.m with hm0def
  set C := 4 * k / m0 ^ 2 with hC
  have hC0 : 0 ≤ C := by positivity
  -- the leading term
  have hlead : Tendsto (fun p0 => 4 * k / (m0 * energyOf m0 p0) * Gs) (𝓝[>] 0) (𝓝 (C * Gs)) := by
    apply tendsto_nhdsWithin_of_tendsto_nhds
    have h1 := (energyOf_continuous m0).tendsto 0
    have e0 : energyOf m0 0 = m0 := by unfold energyOf; rw [zero_pow two_ne_zero, zero_add, Real.sqrt_sq hm0.le]
    rw [e0] at h1
    have h2 : Tendsto (fun p0 => 4 * k / (m0 * energyOf m0 p0) * Gs) (𝓝 0) (𝓝 (4 * k / (m0 * m0) * Gs)) :=
      (tendsto_const_nhds.div (tendsto_const_nhds.mul h1) (by positivity)).mul tendsto_const_nhds
    rw [hC, sq]
    exact h2
  have hrem : Tendsto (fun p0 => (∫ q in lo p0..hi p0, valOf (integrandFull3 p0 q 0 r)) -
      4 * k / (m0 * energyOf m0 p0) * Gs) (𝓝[>] 0) (𝓝 0) := by
    rw [Metric.tendsto_nhds]
    intro ε hε
    set η := ε / (C + 1) with hη
    have hη0 : 0 < η := by positivity
    have hCη : C * η < ε := by
      rw [hη, mul_div_assoc', div_lt_iff₀ (by positivity)]
      nlinarith
    obtain ⟨pa, hpa, pb, hpb, hab⟩ := eventually_prod_iff.mp (Metric.tendsto_nhds.mp hG η hη0)
    obtain ⟨δ, hδ, hball⟩ := Metric.eventually_nhds_iff.mp hpb
    filter_upwards [hpa, self_mem_nhdsWithin, hen, Metric.tendsto_nhds.mp hlo δ hδ, Metric.tendsto_nhds.mp hhi δ hδ]
      with p0 hp h0 hp0 hl hh
    have h0 : 0 < p0 := h0
    obtain ⟨l0, lh, hdiff, hin⟩ := hp0
    have hE0 : m0 ≤ energyOf m0 p0 := by
      unfold energyOf; exact Real.le_sqrt_of_sq_le (by nlinarith)
    have hE : 0 < energyOf m0 p0 := lt_of_lt_of_le hm0 hE0
    rw [Real.dist_eq, abs_lt] at hl hh
    have hq : ∀ q, q ∈ Set.Ioc (lo p0) (hi p0) →
        |(netFlux r fun i => f i (momenta3 r p0 q i)) - Gs| ≤ η := by
      intro q hq
      have := hab hp (hball (y := q) (by rw [Real.dist_eq, abs_lt]; constructor <;> linarith [hq.1, hq.2, hl.1, hh.2]))
      rw [Real.dist_eq] at this
      exact this.le
    have hd : ∀ x ∈ Set.Ioo (lo p0) (hi p0), HasDerivAt (energyOf (r 1).specie.m) (deriv (energyOf (r 1).specie.m) x) x :=
      fun x hx => energyOf_hasDeriv _ x (lt_of_le_of_lt l0 hx.1)
    have hpos : ∀ x, 0 < x → 0 ≤ deriv (energyOf (r 1).specie.m) x := by
      intro x hx
      rw [energyOf_deriv _ _ hx]
      unfold energyOf
      positivity
    have hint : IntervalIntegrable (deriv (energyOf (r 1).specie.m)) volume (lo p0) (hi p0) := by
      apply intervalIntegral.intervalIntegrable_deriv_of_nonneg (energyOf_continuous _).continuousOn
      · rw [min_eq_left lh, max_eq_right lh]; exact hd
      · rw [min_eq_left lh, max_eq_right lh]
        intro x hx
        exact hpos x (lt_of_le_of_lt l0 hx.1)
    have hmeas : Measurable fun q => netFlux r fun i => f i (momenta3 r p0 q i) := by
      have hi : ∀ i, Measurable fun q => f i (momenta3 r p0 q i) := by
        intro i
        refine (hf i).comp ?_
        fin_cases i
        · exact measurable_const
        · exact measurable_id
        · change Measurable fun q => √(lastEnergy3 r p0 q ^ 2 - (r 2).specie.m ^ 2)
          unfold lastEnergy3 energy; fun_prop
      unfold netFlux flux
      refine Measurable.sub ?_ ?_ <;>
      · refine Finset.measurable_prod _ fun i _ => ?_
        split_ifs
        · exact hi i
        · exact measurable_const.sub (measurable_const.mul (hi i))
    set D := fun q => deriv (energyOf (r 1).specie.m) q * ((netFlux r fun i => f i (momenta3 r p0 q i)) - Gs) with hDdef
    have hDle : ∀ q ∈ Set.Ioc (lo p0) (hi p0), ‖D q‖ ≤ deriv (energyOf (r 1).specie.m) q * η := by
      intro q hq'
      have := hpos q (lt_of_le_of_lt l0 hq'.1)
      rw [hDdef, Real.norm_eq_abs, abs_mul, abs_of_nonneg this]
      exact mul_le_mul_of_nonneg_left (hq q hq') this
    have hDint : IntervalIntegrable D volume (lo p0) (hi p0) := by
      refine (hint.mul_const η).mono_fun' ?_ ?_
      · exact ((measurable_deriv _).mul (hmeas.sub measurable_const)).aestronglyMeasurable
      · rw [Set.uIoc_of_le lh]
        filter_upwards [ae_restrict_mem measurableSet_Ioc] with q hq' using hDle q hq'
    have hval : (∫ q in lo p0..hi p0, valOf (integrandFull3 p0 q 0 r)) - 4 * k / (m0 * energyOf m0 p0) * Gs =
        2 / (p0 * energyOf m0 p0) * ∫ q in lo p0..hi p0, D q := by
      have e : (∫ q in lo p0..hi p0, valOf (integrandFull3 p0 q 0 r)) =
          ∫ q in lo p0..hi p0, (2 / (p0 * energyOf m0 p0) * D q +
            2 / (p0 * energyOf m0 p0) * Gs * deriv (energyOf (r 1).specie.m) q) := by
        apply intervalIntegral.integral_congr_Ioo_of_le lh
        intro q hq'
        have hq0 : 0 < q := lt_of_le_of_lt l0 hq'.1
        simp only
        rw [integrand3_full hs s0 hocc hf0 p0 q h0 hq0 (hin q hq0 hq'.1 hq'.2), ← energyOf_deriv _ _ hq0, hDdef]
        ring
      rw [e, intervalIntegral.integral_add (hDint.const_mul _) (hint.const_mul _), intervalIntegral.integral_const_mul,
        intervalIntegral.integral_const_mul, integral_energy _ _ _ l0 lh, hdiff]
      field_simp
      ring
    rw [dist_zero_right, hval, norm_mul, Real.norm_eq_abs, abs_of_pos (by positivity)]
    have hb := intervalIntegral.norm_integral_le_of_norm_le lh (Filter.Eventually.of_forall hDle) (hint.mul_const η)
    rw [intervalIntegral.integral_mul_const, integral_energy _ _ _ l0 lh, hdiff] at hb
    calc 2 / (p0 * energyOf m0 p0) * ‖∫ q in lo p0..hi p0, D q‖
        ≤ 2 / (p0 * energyOf m0 p0) * (2 * p0 * k / m0 * η) := by gcongr
      _ = 4 * k / (m0 * energyOf m0 p0) * η := by field_simp; ring
      _ ≤ C * η := by
          rw [hC, sq]
          gcongr
      _ < ε := hCη
  have := hrem.add hlead
  simpa using this

/-- The integral of the loop for slow decaying particles. -/
theorem quad3_rest (s0 : (r 0).side = -1) (s1 : (r 1).side = 1) (s2 : (r 2).side = 1)
    (hm0 : 0 < (r 0).specie.m) (hm1 : 0 ≤ (r 1).specie.m) (hm2 : 0 ≤ (r 2).specie.m)
    (hopen : (r 1).specie.m + (r 2).specie.m ≤ (r 0).specie.m) {k : ℝ}
    (hk : k = restMomentum (r 0).specie.m (r 1).specie.m (r 2).specie.m)
    (hocc : ∀ i p, 0 ≤ p → occAt (r i).specie p = .ok (f i p)) (hf0 : ∀ i p, 0 ≤ p → 0 ≤ f i p)
    (hf : ∀ i, Measurable (f i))
    (c0 : ContinuousWithinAt (f 0) (Set.Ici 0) 0) (c1 : ContinuousAt (f 1) k) (c2 : ContinuousAt (f 2) k) (max2 : ℝ)
    (st : ℝ × ℝ) :
    Tendsto (fun p0 => ∫ q in (outerLimits3 (loopCtx3 r max2) p0 st).1.1..(outerLimits3 (loopCtx3 r max2) p0 st).1.2,
        valOf (integrandFull3 p0 q 0 r)) (𝓝[>] 0)
      (𝓝 (4 * k / (r 0).specie.m ^ 2 * netFlux r fun i => f i (momenta3 r 0 k i))) := by
  have hs : ∀ i, (r i).side = 1 ∨ (r i).side = -1 := by
    intro i; fin_cases i
    · exact Or.inr s0
    · exact Or.inl s1
    · exact Or.inl s2
  have ht : (loopCtx3 r max2).type = 1 := by simp [loopCtx3, reactionTypeSum, s0, s1, s2]
  have hlim : ∀ p0, (outerLimits3 (loopCtx3 r max2) p0 st).1 =
      (max (p1Bounds3 (r 0).specie.m (r 1).specie.m (r 2).specie.m p0 1 1)
        (-p1Bounds3 (r 0).specie.m (r 1).specie.m (r 2).specie.m p0 1 1),
        p1Bounds3 (r 0).specie.m (r 1).specie.m (r 2).specie.m p0 (-1) 1) := by
    intro p0
    unfold outerLimits3
    rw [ht]
    simp only [show ¬ (1 : ℤ) = -1 by decide, if_false]
    rfl
  have hin := fun p0 h0 q => decay3_inside r max2 p0 q st s0 s1 s2 hm0 hm1 hm2 hopen h0
  change ∀ p0, 0 < p0 → ∀ q, 0 < q → (outerLimits3 (loopCtx3 r max2) p0 st).1.1 < q →
    q < (outerLimits3 (loopCtx3 r max2) p0 st).1.2 → Ok3 r p0 q at hin
  obtain ⟨hlo, hhi⟩ := limits3_rest hm0 hm1 hm2 (Or.inl hopen)
  have hen := fun p0 (h0 : 0 < p0) => limits3_energy hm0 hm1 hm2 hopen h0
  rw [← hk] at hlo hhi hen
  simp only [hlim] at hin ⊢
  refine quad3_core hs s0 hm0 (by rw [hk]; unfold restMomentum; positivity) _ _ hlo hhi ?_ hocc hf0 hf
    (netFlux_rest s0 s2 hm0 hm1 hm2 (Or.inl ⟨s1, hopen⟩) hk c0 c1 c2)
  filter_upwards [self_mem_nhdsWithin] with p0 h0
  obtain ⟨a, b, c⟩ := hen p0 h0
  exact ⟨a, b, c, hin p0 h0⟩

/-- The value stored for a particle at rest. -/
theorem slow_rest_value (s0 : (r 0).side = -1) (s2 : (r 2).side = 1)
    (hm0 : 0 < (r 0).specie.m) (hm1 : 0 ≤ (r 1).specie.m) (hm2 : 0 ≤ (r 2).specie.m)
    (hopen : OpenRest r) {k : ℝ}
    (hk : k = restMomentum (r 0).specie.m (r 1).specie.m (r 2).specie.m)
    (hocc : ∀ i p, 0 ≤ p → occAt (r i).specie p = .ok (f i p)) (hf0 : ∀ i p, 0 ≤ p → 0 ≤ f i p) :
    integrandFull3 0 (p1Bounds1 (r 0).specie.m (r 1).specie.m (r 2).specie.m) 0 r =
      .ok (k * netFlux r fun i => f i (momenta3 r 0 k i)) := by
  have hs : ∀ i, (r i).side = 1 ∨ (r i).side = -1 := by
    intro i; fin_cases i
    · exact Or.inr s0
    · exact hopen.imp And.left And.left
    · exact Or.inl s2
  have hk0 : 0 ≤ k := by rw [hk]; unfold restMomentum; positivity
  obtain ⟨hlast, -⟩ := momentum_rest s0 s2 hm0 hm1 hm2 hopen hk
  rw [restMomentum_eq _ _ _ hm0, ← hk]
  have hf3 : factor3 r 0 k = k := by
    unfold factor3
    rw [if_neg, if_pos rfl, one_mul]
    rw [not_lt, hlast]
    unfold energy
    exact Real.le_sqrt_of_sq_le (by nlinarith)
  have hn := momenta3_nonneg r le_rfl hk0
  unfold integrandFull3
  rw [hf3]
  split_ifs with hz
  · rw [hz, zero_mul]
  · simp only [hocc _ _ (hn _), Bind.bind, Except.bind]
    rw [kind_full_three r (fun i => f i (momenta3 r 0 k i)) hs s0 fun i => hf0 i _ (hn i)]
    rfl

/-- **C131, the loop.** The values which the loop computes for the decaying particle tend, for small momenta, to the value
at rest times `4/m²`, the ratio of the constants of `integrate`. -/
theorem C131_loop (r : Fin 3 → Reactant) (f : Fin 3 → ℝ → ℝ) (max2 : ℝ)
    (s0 : (r 0).side = -1) (s1 : (r 1).side = 1) (s2 : (r 2).side = 1)
    (hm0 : 0 < (r 0).specie.m) (hm1 : 0 ≤ (r 1).specie.m) (hm2 : 0 ≤ (r 2).specie.m)
    (hopen : (r 1).specie.m + (r 2).specie.m ≤ (r 0).specie.m)
    (hocc : ∀ i p, 0 ≤ p → occAt (r i).specie p = .ok (f i p)) (hf0 : ∀ i p, 0 ≤ p → 0 ≤ f i p)
    (hf : ∀ i, Measurable (f i)) (c0 : ContinuousWithinAt (f 0) (Set.Ici 0) 0)
    (c1 : ContinuousAt (f 1) (restMomentum (r 0).specie.m (r 1).specie.m (r 2).specie.m))
    (c2 : ContinuousAt (f 2) (restMomentum (r 0).specie.m (r 1).specie.m (r 2).specie.m)) :
    ∃ I : ℝ → ℝ, (∀ (ps : List ℝ) (min1 max1 : ℝ) (sched : List (List ℕ)), (∀ p ∈ ps, 0 ≤ p) →
        ValidSchedule ps.length sched → integration3Exact r 0 ps min1 max1 max2 sched = .ok (ps.map I)) ∧
      Tendsto I (𝓝[>] 0) (𝓝 (4 / (r 0).specie.m ^ 2 * I 0)) := by
  have hs : ∀ i, (r i).side = 1 ∨ (r i).side = -1 := by
    intro i; fin_cases i
    · exact Or.inr s0
    · exact Or.inl s1
    · exact Or.inl s2
  refine ⟨spectrum3 r f fun _ _ => True, fun ps min1 max1 sched hps hsch => ?_, ?_⟩
  · exact loop_array _ max2 hs s0 hm0.le hocc hf0 (fun st p0 h0 => entry_decay max2 st s0 s1 s2 hm0 hm1 hm2 hopen hocc
      hf0 p0 h0) ps hps min1 max1 sched hsch
  · have h := quad3_rest s0 s1 s2 hm0 hm1 hm2 hopen rfl hocc hf0 hf c0 c1 c2 max2 (0, 0)
    have e0 : spectrum3 r f (fun _ _ => True) 0 = restMomentum (r 0).specie.m (r 1).specie.m (r 2).specie.m *
        netFlux r fun i => f i (momenta3 r 0 (restMomentum (r 0).specie.m (r 1).specie.m (r 2).specie.m) i) := by
      unfold spectrum3
      rw [if_pos rfl, slow_rest_value s0 s2 hm0 hm1 hm2 (Or.inl ⟨s1, hopen⟩) rfl hocc hf0]
      rfl
    rw [e0]
    refine Tendsto.congr' ?_ (h.trans_eq ?_)
    · filter_upwards [self_mem_nhdsWithin] with p0 h0
      have h0 : 0 < p0 := h0
      have hent := entry_decay max2 (0, 0) s0 s1 s2 hm0 hm1 hm2 hopen hocc hf0 p0 h0
      have h2 : (outerLimits3 (loopCtx3 r max2) p0 (0, 0)).2 = true :=
        (C65_decay r max2 p0 1 (0, 0) s0 s1 s2 hm0 hm1 hm2 hopen h0 one_pos).1
      rw [if_pos h2, exactQuad3_eq] at hent
      unfold spectrum3
      rw [if_neg h0.ne']
      exact Except.ok.inj hent
    · congr 1
      ring

end

variable {ι : Type*}

theorem rest_constant (K mass a aT H : ℝ) (hm : 0 < mass) (ha : 0 < a) (haT : 0 < aT) :
    K * aT / a / 8 / Real.pi / H / mass ^ 2 =
      4 / (mass * a / aT) ^ 2 * (K * a / aT / 32 / Real.pi / H) := by
  have := Real.pi_pos
  by_cases hH : H = 0
  · simp [hH]
  · field_simp
    ring

theorem zip_replicate (l : List ℝ) (c : ℝ) : List.zipWith (· * ·) l (List.replicate l.length c) = l.map (· * c) := by
  induction l with
  | nil => rfl
  | cons x l ih => simp [List.replicate_succ, ih]

/-- **C131, the array.** `integrate` of a decaying particle returns the values, at the points of its grid including 0, of a
function which is continuous at 0 and agrees with the loop at every other momentum. -/
theorem C131_rest (c : Int3 ι) (p : Params) (sched : List (List ℕ)) (f : Fin 3 → ℝ → ℝ)
    (haT : 0 < p.aT) (ha : 0 < p.a) (hside : c.side 0 = -1 ∧ c.side 1 = 1 ∧ c.side 2 = 1) (hpl : Plain c)
    (hm0 : 0 < (c.sp 0).mass) (hm1 : 0 ≤ (c.sp 1).mass) (hm2 : 0 ≤ (c.sp 2).mass)
    (hopen : (c.sp 1).mass + (c.sp 2).mass ≤ (c.sp 0).mass) (hcov : Covers c p sched)
    (hocc : ∀ i q, 0 ≤ q → occAt (toC (c.sp i) (c.st i) p) q = .ok (f i q)) (hf0 : ∀ i q, 0 ≤ q → 0 ≤ f i q)
    (hf : ∀ i, Measurable (f i)) (c0 : ContinuousWithinAt (f 0) (Set.Ici 0) 0)
    (c12 : ∀ i, i ≠ 0 → ContinuousAt (f i) (p.a / p.aT * restMomentum (c.sp 0).mass (c.sp 1).mass (c.sp 2).mass)) :
    ∃ (J : ℝ → ℝ) (B : List ℝ), integrate3 c p sched = .ok (.two ((c.sp 0).grid.map J) B) ∧
      (∀ y, 0 < y → rateAt3 c p y = .ok (J y)) ∧ ContinuousWithinAt J (Set.Ici 0) 0 := by
  have hmass : ∀ i, (c.reaction p i).specie.m = p.a / p.aT * (c.sp i).mass := by
    intro i; change (c.sp i).mass * p.a / p.aT = _; ring
  have hb : 0 < p.a / p.aT := by positivity
  have n0 : 0 < (c.reaction p 0).specie.m := by rw [hmass]; positivity
  have n1 : 0 ≤ (c.reaction p 1).specie.m := by rw [hmass]; positivity
  have n2 : 0 ≤ (c.reaction p 2).specie.m := by rw [hmass]; positivity
  have hop : (c.reaction p 1).specie.m + (c.reaction p 2).specie.m ≤ (c.reaction p 0).specie.m := by
    rw [hmass, hmass, hmass, ← mul_add]
    exact mul_le_mul_of_nonneg_left hopen hb.le
  have hk : restMomentum (c.reaction p 0).specie.m (c.reaction p 1).specie.m (c.reaction p 2).specie.m =
      p.a / p.aT * restMomentum (c.sp 0).mass (c.sp 1).mass (c.sp 2).mass := by
    rw [hmass, hmass, hmass, restMomentum_scale _ _ _ _ hb]
  have hs : ∀ i, (c.reaction p i).side = 1 ∨ (c.reaction p i).side = -1 := by
    intro i; fin_cases i
    · exact Or.inr hside.1
    · exact Or.inl hside.2.1
    · exact Or.inl hside.2.2
  obtain ⟨I, hI, hlim⟩ := C131_loop (c.reaction p) f (c.max2 / p.aT) hside.1 hside.2.1 hside.2.2 n0 n1 n2 hop hocc hf0 hf c0
    (by rw [hk]; exact c12 1 (by decide)) (by rw [hk]; exact c12 2 (by decide))
  have hc : ¬ pyCreation (c.side 0 + c.side 1 + c.side 2) = true := by
    rw [hside.1, hside.2.1, hside.2.2]; decide
  have hcc : cutoff3 (c.side 0 + c.side 1 + c.side 2) ((c.sp 0).grid.map (· / p.aT)) (c.sp 0).grid c.lb c.ub p.aT =
      some ⟨[], (c.sp 0).grid.map (· / p.aT), []⟩ := by
    unfold cutoff3
    rw [if_neg hc]
  obtain ⟨l, hgrid⟩ : ∃ l, (c.sp 0).grid = 0 :: l := by
    obtain ⟨y, ys, h⟩ := hpl.grid
    exact ⟨_, h⟩
  have hinc := hpl.inc
  have hpos : ∀ g ∈ l, 0 < g := by
    rw [hgrid] at hinc
    exact (List.pairwise_cons.mp hinc).1
  have hq0 : ∀ q ∈ (c.sp 0).grid.map (· / p.aT), 0 ≤ q := by
    intro q hq
    obtain ⟨g, hg, rfl⟩ := List.mem_map.mp hq
    rw [hgrid] at hg
    rcases List.mem_cons.mp hg with rfl | hg
    · simp
    · exact div_nonneg (hpos g hg).le haT.le
  have hsch := hcov _ hcc
  dsimp only at hsch
  have h1 := hI _ (c.min1 / p.aT) (c.max1 / p.aT) sched hq0 hsch
  obtain ⟨B, h2, -⟩ := loop_ff (c.reaction p) f hs hside.1 n0.le hocc hf0 ((c.sp 0).grid.map (· / p.aT)) (c.min1 / p.aT)
    (c.max1 / p.aT) (c.max2 / p.aT) sched hsch
  set κ := common3 c.K p / dofFactor c.majorana (c.sp 0).dof * c.mult with hκ
  set J : ℝ → ℝ := fun y => if y = 0 then 4 / (c.reaction p 0).specie.m ^ 2 * I 0 * κ else I (y / p.aT) * κ with hJ
  refine ⟨J, mulArr B (constants3 c.K (c.sp 0).mass (c.sp 0).dof c.majorana c.mult p (c.sp 0).grid.length), ?_, ?_, ?_⟩
  · have harr : mulArr (((c.sp 0).grid.map (· / p.aT)).map I)
        (constants3 c.K (c.sp 0).mass (c.sp 0).dof c.majorana c.mult p (c.sp 0).grid.length) = (c.sp 0).grid.map J := by
      unfold mulArr constants3
      dsimp only
      rw [hgrid]
      simp only [List.map_cons, List.map_replicate, List.zipWith_cons_cons]
      congr 1
      · rw [zero_div, if_neg hm0.ne', rest_constant _ _ _ _ _ hm0 ha haT, hJ]
        dsimp only
        rw [if_pos rfl, hκ]
        change _ = 4 / ((c.sp 0).mass * p.a / p.aT) ^ 2 * I 0 * _
        unfold common3
        by_cases hl : p.log = true
        · rw [if_pos hl, if_pos hl]; ring
        · rw [if_neg hl, if_neg hl]; ring
      · have hlen : (0 :: l).length - 1 = ((l.map (· / p.aT)).map I).length := by simp
        rw [hlen, zip_replicate, List.map_map, List.map_map]
        refine List.map_congr_left fun g hg => ?_
        have hg0 := (hpos g hg).ne'
        rw [hJ]
        dsimp only [Function.comp]
        rw [if_neg hg0, hκ]
        unfold common3
        by_cases hl : p.log = true
        · rw [if_pos hl, if_pos hl]; ring
        · rw [if_neg hl, if_neg hl]; ring
    rw [← harr]
    unfold integrate3
    simp only [hpl.active, Bool.false_eq_true, if_false, hcc, hpl.kind, hpl.slow, not_false_eq_true, true_or, true_and,
      if_true, CKind.toInt, h1, h2, List.nil_append, List.append_nil]
  · intro y hy
    have := hI [y / p.aT] (c.min1 / p.aT) (c.max1 / p.aT) [[0]] (by simp; positivity) (by simp [ValidSchedule])
    unfold rateAt3
    rw [this]
    simp only [List.map_cons, List.map_nil, hJ, if_neg hy.ne']
    rw [hκ]
  · have hd : Tendsto (fun y : ℝ => y / p.aT) (𝓝[>] 0) (𝓝[>] 0) := by
      refine tendsto_nhdsWithin_iff.mpr ⟨?_, ?_⟩
      · apply tendsto_nhdsWithin_of_tendsto_nhds
        have : Continuous fun y : ℝ => y / p.aT := by fun_prop
        simpa using this.tendsto 0
      · filter_upwards [self_mem_nhdsWithin] with y hy
        exact div_pos hy haT
    rw [← Set.Ioi_insert, continuousWithinAt_insert_self]
    have e0 : J 0 = 4 / (c.reaction p 0).specie.m ^ 2 * I 0 * κ := by rw [hJ]; simp
    unfold ContinuousWithinAt
    rw [e0]
    refine Tendsto.congr' ?_ ((hlim.comp hd).mul_const κ)
    filter_upwards [self_mem_nhdsWithin] with y hy
    have hy : 0 < y := hy
    simp only [hJ, if_neg hy.ne', Function.comp]

end PyBBN
