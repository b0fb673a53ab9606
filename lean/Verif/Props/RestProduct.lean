import Verif.Props.Continuity
/-!
# C133: the collision term of a massive product at rest

For the product of a decay the loop stops at the parents of the grid, except for the entry at rest
(three_particle/cpp/integral.cpp 491–494 and 499–513).  The entry at rest is the limit of the others if the parents which
it counts are on the grid; if they are not, it is the only entry in which they count.
-/
namespace PyBBN
open MeasureTheory Filter Topology

theorem recoil_pos {m0 m1 m2 : ℝ} (hm0 : 0 < m0) (hm1 : 0 ≤ m1) (hopen : m0 + m1 < m2) :
    0 < restMomentum m0 m1 m2 := by
  unfold restMomentum
  have a : m0 ^ 2 - (m1 + m2) ^ 2 < 0 := by nlinarith
  have b : m0 ^ 2 - (m1 - m2) ^ 2 < 0 := by nlinarith
  have := mul_pos_of_neg_of_neg a b
  positivity

/-- The limits of the loop for a slow product, in energy. -/
theorem limits3_energy_product {m0 m1 m2 p0 : ℝ} (hm0 : 0 < m0) (hm1 : 0 ≤ m1) (hm2 : 0 ≤ m2)
    (hopen : m0 + m1 ≤ m2) (h0 : 0 < p0) :
    let lo := max (p1Bounds3 m0 m1 m2 p0 (-1) 1) (-p1Bounds3 m0 m1 m2 p0 (-1) 1)
    let hi := p1Bounds3 m0 m1 m2 p0 1 1
    0 ≤ lo ∧ lo ≤ hi ∧
    energyOf m1 hi - energyOf m1 lo = 2 * p0 * restMomentum m0 m1 m2 / m0 := by
  intro lo hi
  have hR := bounds3_rad_nonneg (p0 := p0) hm0.le hm1 hm2 (Or.inr hopen)
  have hE2 := energy_sq p0 m0
  have hE := energy_nonneg p0 m0
  have hEp := le_energy p0 m0
  set E := energy p0 m0 with hEdef
  set A := m2 ^ 2 - m1 ^ 2 - m0 ^ 2 with hA
  set L := (m0 ^ 2 - (m1 + m2) ^ 2) * (m0 ^ 2 - (m1 - m2) ^ 2) with hL
  have hL0 : 0 ≤ L := by
    have a : m0 ^ 2 - (m1 + m2) ^ 2 ≤ 0 := by nlinarith
    have b : m0 ^ 2 - (m1 - m2) ^ 2 ≤ 0 := by nlinarith
    exact mul_nonneg_of_nonpos_of_nonpos a b
  have hLA : L = A ^ 2 - 4 * m0 ^ 2 * m1 ^ 2 := by rw [hL, hA]; ring
  have hA0 : 0 ≤ A := by rw [hA]; nlinarith
  have hLs : √L ≤ A := by
    rw [Real.sqrt_le_left hA0, hLA]; nlinarith [sq_nonneg (m0 * m1)]
  have hs := Real.sq_sqrt hL0
  have hs0 := Real.sqrt_nonneg L
  have hroot : √((p0 ^ 2 + m0 ^ 2) * (m1 ^ 4 + (m2 ^ 2 - m0 ^ 2) ^ 2 - 2 * m1 ^ 2 * (m2 ^ 2 + m0 ^ 2))) =
      E * √L := by
    rw [show (p0 ^ 2 + m0 ^ 2) * (m1 ^ 4 + (m2 ^ 2 - m0 ^ 2) ^ 2 - 2 * m1 ^ 2 * (m2 ^ 2 + m0 ^ 2)) =
      E ^ 2 * L by rw [hE2, hL]; ring, Real.sqrt_mul (sq_nonneg E), Real.sqrt_sq hE]
  have b1 : p1Bounds3 m0 m1 m2 p0 (-1) 1 = (E * √L - p0 * A) / (2 * m0 ^ 2) := by
    rw [p1Bounds3_eq _ _ _ _ _ _ hR, hroot]; congr 1; rw [hA]; ring
  have b2 : hi = (E * √L + p0 * A) / (2 * m0 ^ 2) := by
    change p1Bounds3 m0 m1 m2 p0 1 1 = _
    rw [p1Bounds3_eq _ _ _ _ _ _ hR, hroot]; congr 1; rw [hA]; ring
  have hlo : lo = |(E * √L - p0 * A) / (2 * m0 ^ 2)| := by
    change max _ _ = _
    rw [b1]; exact abs_eq_max_neg.symm
  have hpos : 0 < 2 * m0 ^ 2 := by positivity
  have key1 : (E * √L + p0 * A) ^ 2 + 4 * m0 ^ 4 * m1 ^ 2 = (E * A + p0 * √L) ^ 2 := by
    linear_combination -(A ^ 2 - √L ^ 2) * hE2 + m0 ^ 2 * hs + m0 ^ 2 * hLA
  have key2 : (E * √L - p0 * A) ^ 2 + 4 * m0 ^ 4 * m1 ^ 2 = (E * A - p0 * √L) ^ 2 := by
    linear_combination -(A ^ 2 - √L ^ 2) * hE2 + m0 ^ 2 * hs + m0 ^ 2 * hLA
  have hD : 4 * m0 ^ 4 * m1 ^ 2 / (2 * m0 ^ 2) ^ 2 = m1 ^ 2 := by
    rw [div_eq_iff (by positivity)]; ring
  have e1 : energyOf m1 hi = (E * A + p0 * √L) / (2 * m0 ^ 2) := by
    unfold energyOf
    rw [← Real.sqrt_sq (show 0 ≤ (E * A + p0 * √L) / (2 * m0 ^ 2) by positivity), b2, div_pow, div_pow,
      ← key1, add_div, hD]
  have e2 : energyOf m1 lo = (E * A - p0 * √L) / (2 * m0 ^ 2) := by
    have hn : 0 ≤ (E * A - p0 * √L) / (2 * m0 ^ 2) := by
      apply div_nonneg _ hpos.le
      have := mul_le_mul hEp hLs hs0 hE
      linarith
    unfold energyOf
    rw [← Real.sqrt_sq hn, hlo, sq_abs, div_pow, div_pow, ← key2, add_div, hD]
  refine ⟨by rw [hlo]; positivity, ?_, ?_⟩
  · rw [hlo, b2, abs_div, abs_of_pos hpos]
    apply div_le_div_of_nonneg_right _ hpos.le
    rw [abs_le]
    have : 0 ≤ p0 * A := by positivity
    have : 0 ≤ E * √L := by positivity
    constructor <;> linarith
  · rw [e1, e2]
    unfold restMomentum
    rw [← hL]
    field_simp
    ring


section
variable {r : Fin 3 → Reactant} {f : Fin 3 → ℝ → ℝ}

/-- The limits of the loop for a product. -/
theorem product_limits (s0 : (r 0).side = -1) (s1 : (r 1).side = -1) (s2 : (r 2).side = 1) (hm0 : 0 < (r 0).specie.m)
    (max2 p0 : ℝ) (st : ℝ × ℝ) :
    let mn := p1Bounds3 (r 0).specie.m (r 1).specie.m (r 2).specie.m p0 (-1) 1
    let top := p1Bounds3 (r 0).specie.m (r 1).specie.m (r 2).specie.m p0 1 1
    let temp := p1Bounds4 (r 0).specie.m (r 1).specie.m (r 2).specie.m p0 max2
    (temp = -1 → (outerLimits3 (loopCtx3 r max2) p0 st).2 = false) ∧
    (temp ≠ -1 → max mn (-mn) < min top temp →
      outerLimits3 (loopCtx3 r max2) p0 st = ((max mn (-mn), min top temp), true)) ∧
    (min top temp ≤ max mn (-mn) → (outerLimits3 (loopCtx3 r max2) p0 st).2 = false) := by
  intro mn top temp
  have ht : (loopCtx3 r max2).type = -1 := by simp [loopCtx3, reactionTypeSum, s0, s1, s2]
  have e : outerLimits3 (loopCtx3 r max2) p0 st = (open Classical in if temp = -1 then ((max mn (-mn), st.2), false)
      else if max mn (-mn) ≥ min top temp then ((max mn (-mn), min top temp), false)
      else ((max mn (-mn), min top temp), true)) := by
    unfold outerLimits3
    rw [ht]
    simp only [if_true]
    rw [if_neg (show ¬ (loopCtx3 r max2).m0 = 0 from hm0.ne')]
    rfl
  rw [e]
  refine ⟨fun h => by rw [if_pos h], fun h h' => by rw [if_neg h, if_neg (not_le.mpr h')], fun h => ?_⟩
  split_ifs <;> rfl

/-- The energy of the parent of a product at rest. -/
theorem parent_energy (s0 : (r 0).side = -1) (s1 : (r 1).side = -1) (s2 : (r 2).side = 1)
    (hm0 : 0 < (r 0).specie.m) (hm1 : 0 ≤ (r 1).specie.m) (hm2 : 0 ≤ (r 2).specie.m)
    (hopen : (r 0).specie.m + (r 1).specie.m < (r 2).specie.m) {k : ℝ}
    (hk : k = restMomentum (r 0).specie.m (r 1).specie.m (r 2).specie.m) (g : ℝ → ℝ) (hg : Tendsto g (𝓝[>] 0) (𝓝 k)) :
    Tendsto (fun p0 => energy p0 (r 0).specie.m + energy (g p0) (r 1).specie.m) (𝓝[>] 0)
      (𝓝 (energy k (r 2).specie.m)) := by
  obtain ⟨hl, -⟩ := momentum_rest s0 s2 hm0 hm1 hm2 (Or.inr ⟨s1, hopen.le⟩) hk
  have ee : lastEnergy3 r 0 k = energy 0 (r 0).specie.m + energy k (r 1).specie.m := by
    unfold lastEnergy3
    rw [s0, s1, s2]; push_cast; ring
  rw [← hl, ee]
  have hc : ∀ m : ℝ, Continuous fun p : ℝ => energy p m := fun m => by unfold energy; fun_prop
  exact (((hc _).tendsto 0).mono_left nhdsWithin_le_nhds).add (((hc _).tendsto k).comp hg)

theorem energy_lt_of_lt {a b : ℝ} (m : ℝ) (ha : 0 ≤ a) (h : a < b) : energy a m < energy b m := by
  rw [← sq_lt_sq₀ (energy_nonneg _ _) (energy_nonneg _ _), energy_sq, energy_sq]
  nlinarith

/-- **C133, parents on the grid.** If the momentum of the parent of a product at rest is below the end of the grid, the
values which the loop computes for the product tend, for small momenta, to the value at rest times `4/m²`. -/
theorem C133_inside_partial (r : Fin 3 → Reactant) (f : Fin 3 → ℝ → ℝ) (max2 : ℝ)
    (s0 : (r 0).side = -1) (s1 : (r 1).side = -1) (s2 : (r 2).side = 1)
    (hm0 : 0 < (r 0).specie.m) (hm1 : 0 ≤ (r 1).specie.m)
    (hopen : (r 0).specie.m + (r 1).specie.m < (r 2).specie.m)
    (hmax : restMomentum (r 0).specie.m (r 1).specie.m (r 2).specie.m < max2)
    (hocc : ∀ i p, 0 ≤ p → occAt (r i).specie p = .ok (f i p)) (hf0 : ∀ i p, 0 ≤ p → 0 ≤ f i p)
    (hf : ∀ i, Measurable (f i)) (c0 : ContinuousWithinAt (f 0) (Set.Ici 0) 0)
    (c1 : ContinuousAt (f 1) (restMomentum (r 0).specie.m (r 1).specie.m (r 2).specie.m))
    (c2 : ContinuousAt (f 2) (restMomentum (r 0).specie.m (r 1).specie.m (r 2).specie.m)) :
    ∃ I : ℝ → ℝ, (∀ (ps : List ℝ) (min1 max1 : ℝ) (sched : List (List ℕ)), (∀ p ∈ ps, 0 ≤ p) →
        ValidSchedule ps.length sched → integration3Exact r 0 ps min1 max1 max2 sched = .ok (ps.map I)) ∧
      Tendsto I (𝓝[>] 0) (𝓝 (4 / (r 0).specie.m ^ 2 * I 0)) := by
  have hm2 : 0 ≤ (r 2).specie.m := by linarith
  have hs : ∀ i, (r i).side = 1 ∨ (r i).side = -1 := by
    intro i; fin_cases i
    · exact Or.inr s0
    · exact Or.inr s1
    · exact Or.inl s2
  have hop : OpenRest r := Or.inr ⟨s1, hopen.le⟩
  have hkp := recoil_pos hm0 hm1 hopen
  have hmx : 0 ≤ max2 := by linarith
  refine ⟨spectrum3 r f fun p0 p1 => momenta3 r p0 p1 2 ≤ max2, fun ps min1 max1 sched hps hsch => ?_, ?_⟩
  · exact loop_array _ max2 hs s0 hm0.le hocc hf0 (fun st p0 h0 => entry_creation max2 st hmx s0 s1 s2 hm0.le hm1 hm2 hopen
      hocc hf0 p0 h0) ps hps min1 max1 sched hsch
  · have key := bounds3_rest hm0 hm1 hm2 (Or.inr hopen.le)
    have hen := fun p0 (h0 : 0 < p0) => limits3_energy_product hm0 hm1 hm2 hopen.le h0
    have e0 : spectrum3 r f (fun p0 p1 => momenta3 r p0 p1 2 ≤ max2) 0 =
        restMomentum (r 0).specie.m (r 1).specie.m (r 2).specie.m *
        netFlux r fun i => f i (momenta3 r 0 (restMomentum (r 0).specie.m (r 1).specie.m (r 2).specie.m) i) := by
      unfold spectrum3
      rw [if_pos rfl, slow_rest_value s0 s2 hm0 hm1 hm2 hop rfl hocc hf0]
      rfl
    rw [e0]
    have hpe := parent_energy s0 s1 s2 hm0 hm1 hm2 hopen rfl _ (key 1)
    have hlo := (key (-1)).max (key (-1)).neg
    have hin := fun p0 h0 q h1 => (creation3_limits r max2 p0 q (0, 0) s0 s1 s2 hm0 hm1 hm2 hopen.le hmx h0 h1).2
    change ∀ p0, 0 < p0 → ∀ q, 0 < q → (outerLimits3 (loopCtx3 r max2) p0 (0, 0)).2 = true →
      (outerLimits3 (loopCtx3 r max2) p0 (0, 0)).1.1 < q → q < (outerLimits3 (loopCtx3 r max2) p0 (0, 0)).1.2 →
      Ok3 r p0 q ∧ _ at hin
    set k := restMomentum (r 0).specie.m (r 1).specie.m (r 2).specie.m with hk
    rw [max_eq_left (by linarith)] at hlo
    have hlim : ∀ᶠ p0 in 𝓝[>] (0 : ℝ), outerLimits3 (loopCtx3 r max2) p0 (0, 0) =
        ((max (p1Bounds3 (r 0).specie.m (r 1).specie.m (r 2).specie.m p0 (-1) 1)
          (-p1Bounds3 (r 0).specie.m (r 1).specie.m (r 2).specie.m p0 (-1) 1),
          p1Bounds3 (r 0).specie.m (r 1).specie.m (r 2).specie.m p0 1 1), true) := by
      filter_upwards [self_mem_nhdsWithin, (key 1).eventually (lt_mem_nhds hkp),
        hpe.eventually (gt_mem_nhds (energy_lt_of_lt (r 2).specie.m hkp.le hmax))] with p0 h0 ht he
      have h0 : 0 < p0 := h0
      obtain ⟨b1, b2⟩ := p1Bounds4_le _ _ _ _ _ _ ht he.le
      obtain ⟨-, l, d⟩ := hen p0 h0
      have hne : max (p1Bounds3 (r 0).specie.m (r 1).specie.m (r 2).specie.m p0 (-1) 1)
          (-p1Bounds3 (r 0).specie.m (r 1).specie.m (r 2).specie.m p0 (-1) 1) <
          p1Bounds3 (r 0).specie.m (r 1).specie.m (r 2).specie.m p0 1 1 := by
        refine lt_of_le_of_ne l fun h => ?_
        rw [h, sub_self] at d
        have : 0 < 2 * p0 * k / (r 0).specie.m := by positivity
        linarith
      have h := (product_limits s0 s1 s2 hm0 max2 p0 (0, 0)).2.1 b1
      rw [min_eq_left b2] at h
      exact h hne
    have h := quad3_core hs s0 hm0 hkp.le _ _ hlo (key 1) (by
      filter_upwards [self_mem_nhdsWithin, hlim] with p0 h0 hl
      obtain ⟨a, b, c⟩ := hen p0 h0
      refine ⟨a, b, c, fun q hq l h => ?_⟩
      have := hin p0 h0 q hq
      rw [hl] at this
      exact (this rfl l h).1) hocc hf0 hf (netFlux_rest s0 s2 hm0 hm1 hm2 hop hk c0 c1 c2)
    refine Tendsto.congr' ?_ (h.trans_eq ?_)
    · filter_upwards [self_mem_nhdsWithin, hlim] with p0 h0 hl
      have h0 : 0 < p0 := h0
      have hent := entry_creation max2 (0, 0) hmx s0 s1 s2 hm0.le hm1 hm2 hopen hocc hf0 p0 h0
      rw [hl, if_pos rfl, exactQuad3_eq] at hent
      unfold spectrum3
      rw [if_neg h0.ne']
      exact Except.ok.inj hent
    · congr 1
      ring

/-- **C133, parents beyond the grid.** If the parent of a product at rest has a momentum beyond the end of the grid, every
entry of a slow product is 0, but the entry at rest is the recoil momentum times the balance of that parent. -/
theorem C133_beyond (r : Fin 3 → Reactant) (f : Fin 3 → ℝ → ℝ) (max2 : ℝ)
    (s0 : (r 0).side = -1) (s1 : (r 1).side = -1) (s2 : (r 2).side = 1)
    (hm0 : 0 < (r 0).specie.m) (hm1 : 0 ≤ (r 1).specie.m)
    (hopen : (r 0).specie.m + (r 1).specie.m < (r 2).specie.m) (hmax0 : 0 ≤ max2)
    (hmax : max2 < restMomentum (r 0).specie.m (r 1).specie.m (r 2).specie.m)
    (hocc : ∀ i p, 0 ≤ p → occAt (r i).specie p = .ok (f i p)) (hf0 : ∀ i p, 0 ≤ p → 0 ≤ f i p) :
    ∃ I : ℝ → ℝ, (∀ (ps : List ℝ) (min1 max1 : ℝ) (sched : List (List ℕ)), (∀ p ∈ ps, 0 ≤ p) →
        ValidSchedule ps.length sched → integration3Exact r 0 ps min1 max1 max2 sched = .ok (ps.map I)) ∧
      (∃ ε > 0, ∀ p, 0 < p → p < ε → I p = 0) ∧
      I 0 = restMomentum (r 0).specie.m (r 1).specie.m (r 2).specie.m * netFlux r fun i =>
        f i ((![0, restMomentum (r 0).specie.m (r 1).specie.m (r 2).specie.m,
          restMomentum (r 0).specie.m (r 1).specie.m (r 2).specie.m] : Fin 3 → ℝ) i) := by
  have hm2 : 0 ≤ (r 2).specie.m := by linarith
  have hs : ∀ i, (r i).side = 1 ∨ (r i).side = -1 := by
    intro i; fin_cases i
    · exact Or.inr s0
    · exact Or.inr s1
    · exact Or.inl s2
  have hop : OpenRest r := Or.inr ⟨s1, hopen.le⟩
  have hkp := recoil_pos hm0 hm1 hopen
  refine ⟨spectrum3 r f fun p0 p1 => momenta3 r p0 p1 2 ≤ max2, fun ps min1 max1 sched hps hsch => ?_, ?_, ?_⟩
  · exact loop_array _ max2 hs s0 hm0.le hocc hf0 (fun st p0 h0 => entry_creation max2 st hmax0 s0 s1 s2 hm0.le hm1 hm2 hopen
      hocc hf0 p0 h0) ps hps min1 max1 sched hsch
  · have key := bounds3_rest hm0 hm1 hm2 (Or.inr hopen.le)
    have hlo := (key (-1)).max (key (-1)).neg
    rw [max_eq_left (by linarith)] at hlo
    have hpe := parent_energy s0 s1 s2 hm0 hm1 hm2 hopen rfl _ hlo
    have hev : ∀ᶠ p0 in 𝓝[>] (0 : ℝ), spectrum3 r f (fun p0 p1 => momenta3 r p0 p1 2 ≤ max2) p0 = 0 := by
      filter_upwards [self_mem_nhdsWithin, hlo.eventually (lt_mem_nhds hkp),
        hpe.eventually (lt_mem_nhds (energy_lt_of_lt (r 2).specie.m hmax0 hmax))] with p0 h0 hl he
      have h0 : 0 < p0 := h0
      have hent := entry_creation max2 (0, 0) hmax0 s0 s1 s2 hm0.le hm1 hm2 hopen hocc hf0 p0 h0
      have hfl : (outerLimits3 (loopCtx3 r max2) p0 (0, 0)).2 = false := by
        refine (product_limits s0 s1 s2 hm0 max2 p0 (0, 0)).2.2 ((min_le_right _ _).trans ?_)
        by_contra hn
        exact absurd (le_p1Bounds4 _ _ _ _ _ _ hl (not_le.mp hn).le) (not_le.mpr he)
      rw [hfl, if_neg (by decide)] at hent
      unfold spectrum3
      rw [if_neg h0.ne']
      exact (Except.ok.inj hent).symm
    obtain ⟨ε, hε, h⟩ := (mem_nhdsGT_iff_exists_Ioo_subset).mp hev
    exact ⟨ε, hε, fun p hp hp' => h ⟨hp, hp'⟩⟩
  · unfold spectrum3
    rw [if_pos rfl, slow_rest_value s0 s2 hm0 hm1 hm2 hop rfl hocc hf0,
      (momentum_rest s0 s2 hm0 hm1 hm2 hop rfl).2]
    rfl

end

variable {ι : Type*}

/-- The first entry of the array of a massive product is the value at rest with its own constant. -/
theorem product_head (c : Int3 ι) (p : Params) (sched : List (List ℕ)) (f : Fin 3 → ℝ → ℝ) (I : ℝ → ℝ)
    (haT : 0 < p.aT) (ha : 0 < p.a) (hside : c.side 0 = -1 ∧ c.side 1 = -1 ∧ c.side 2 = 1) (hpl : Plain c)
    (hm0 : 0 < (c.sp 0).mass) (hcutb : CutBounds c p) (hub : ∃ g ∈ (c.sp 0).grid, 0 < g ∧ g < c.ub)
    (hcov : Covers c p sched)
    (hocc : ∀ i q, 0 ≤ q → occAt (toC (c.sp i) (c.st i) p) q = .ok (f i q)) (hf0 : ∀ i q, 0 ≤ q → 0 ≤ f i q)
    (hI : ∀ (ps : List ℝ) (min1 max1 : ℝ) (sched : List (List ℕ)), (∀ q ∈ ps, 0 ≤ q) → ValidSchedule ps.length sched →
      integration3Exact (c.reaction p) 0 ps min1 max1 (c.max2 / p.aT) sched = .ok (ps.map I)) :
    ∃ A B, integrate3 c p sched = .ok (.two A B) ∧
      A.head? = some (4 / (c.reaction p 0).specie.m ^ 2 * I 0 *
        (common3 c.K p / dofFactor c.majorana (c.sp 0).dof * c.mult)) := by
  have hb : 0 < p.a / p.aT := by positivity
  have n0 : 0 < (c.reaction p 0).specie.m := by
    change 0 < (c.sp 0).mass * p.a / p.aT
    positivity
  have hs : ∀ i, (c.reaction p i).side = 1 ∨ (c.reaction p i).side = -1 := by
    intro i; fin_cases i
    · exact Or.inr hside.1
    · exact Or.inr hside.2.1
    · exact Or.inl hside.2.2
  obtain ⟨s1, s2, s3, e1, e2, e3, e4, e5, e6⟩ := hcutb
  have hml : ¬ s1.massless = true := fun h => hm0.ne' (e4.mp h)
  have hlb : c.lb = 0 := by
    rw [show c.lb = (bounds3Creation s1 s2 s3).1 from congrArg Prod.fst e6]
    unfold bounds3Creation
    dsimp only
    rw [if_neg hml, sub_self, Real.sqrt_zero]
  obtain ⟨y, ys, hgrid⟩ := hpl.grid
  have hg0 : ∀ g ∈ (c.sp 0).grid, 0 ≤ g := by
    intro g hg
    have hinc := hpl.inc
    rw [hgrid] at hg hinc
    rcases List.mem_cons.mp hg with rfl | hg
    · exact le_rfl
    · exact ((List.pairwise_cons.mp hinc).1 g hg).le
  obtain ⟨g, hg, g0, gu⟩ := hub
  have hcr : pyCreation (c.side 0 + c.side 1 + c.side 2) = true := by
    rw [hside.1, hside.2.1, hside.2.2]; decide
  have hlen : (c.sp 0).grid.length = ys.length + 2 := by rw [hgrid]; rfl
  rcases C47_three (c.sp 0).grid (by rw [hgrid]; simp) hpl.inc c.lb c.ub (by linarith) hg0 with
    ⟨lo, hi, h1, h2, h3, h4, h5, h6, -, -, h9⟩ | ⟨-, h⟩
  · have hlo : lo = 0 := by
      have := (h9 0 (by omega) (by simp [hgrid, hlb]) (by simp [hgrid]; linarith)).1
      omega
    subst hlo
    have hz : (gridBounds3 (c.sp 0).grid c.lb c.ub).zeros1 = [] := List.eq_nil_of_length_eq_zero h3
    have hpt : (gridBounds3 (c.sp 0).grid c.lb c.ub).points = 0 :: (y :: ys).take hi := by
      rw [h4, List.drop_zero, hgrid, List.take_succ_cons]
    have hcc : cutoff3 (c.side 0 + c.side 1 + c.side 2) ((c.sp 0).grid.map (· / p.aT)) (c.sp 0).grid c.lb c.ub p.aT =
        some ⟨[], (0 :: (y :: ys).take hi).map (· / p.aT), (gridBounds3 (c.sp 0).grid c.lb c.ub).zeros3⟩ := by
      unfold cutoff3 gridCutoff3
      rw [if_pos hcr]
      dsimp only
      rw [if_pos h6, hz, hpt]
    have hq0 : ∀ q ∈ (0 :: (y :: ys).take hi).map (· / p.aT), 0 ≤ q := by
      intro q hq
      obtain ⟨g, hg, rfl⟩ := List.mem_map.mp hq
      refine div_nonneg (hg0 g ?_) haT.le
      rw [hgrid]
      rcases List.mem_cons.mp hg with rfl | hg
      · exact List.mem_cons_self
      · exact List.mem_cons_of_mem _ (List.mem_of_mem_take hg)
    have hsch := hcov _ hcc
    dsimp only at hsch
    have k1 := hI _ (c.min1 / p.aT) (c.max1 / p.aT) sched hq0 hsch
    obtain ⟨B, k2, -⟩ := loop_ff (c.reaction p) f hs hside.1 n0.le hocc hf0 ((0 :: (y :: ys).take hi).map (· / p.aT))
      (c.min1 / p.aT) (c.max1 / p.aT) (c.max2 / p.aT) sched hsch
    refine ⟨mulArr (((0 :: (y :: ys).take hi).map (· / p.aT)).map I ++ (gridBounds3 (c.sp 0).grid c.lb c.ub).zeros3)
      (constants3 c.K (c.sp 0).mass (c.sp 0).dof c.majorana c.mult p (c.sp 0).grid.length),
      mulArr (B ++ (gridBounds3 (c.sp 0).grid c.lb c.ub).zeros3)
      (constants3 c.K (c.sp 0).mass (c.sp 0).dof c.majorana c.mult p (c.sp 0).grid.length), ?_, ?_⟩
    · unfold integrate3
      simp only [hpl.active, Bool.false_eq_true, if_false, hcc, hpl.kind, hpl.slow, not_false_eq_true, true_or, true_and,
        if_true, CKind.toInt, k1, k2, List.nil_append]
    · unfold mulArr constants3
      dsimp only
      simp only [List.map_cons, List.cons_append, List.zipWith_cons_cons, List.head?_cons]
      rw [zero_div, if_neg hm0.ne', rest_constant _ _ _ _ _ hm0 ha haT]
      congr 1
      change _ = 4 / ((c.sp 0).mass * p.a / p.aT) ^ 2 * I 0 * _
      unfold common3
      by_cases hl : p.log = true
      · rw [if_pos hl, if_pos hl]; ring
      · rw [if_neg hl, if_neg hl]; ring
  · exact absurd ⟨by rw [hlb]; exact g0, gu⟩ (h (by omega) g hg)

/-- **C133, the array.** If the momentum of the parent of a product at rest is below the end of the grid, the first entry of
the array which `integrate` returns is the limit of what the loop computes for slow products. -/
theorem C133_array_partial (c : Int3 ι) (p : Params) (sched : List (List ℕ)) (f : Fin 3 → ℝ → ℝ)
    (haT : 0 < p.aT) (ha : 0 < p.a) (hside : c.side 0 = -1 ∧ c.side 1 = -1 ∧ c.side 2 = 1) (hpl : Plain c)
    (hm0 : 0 < (c.sp 0).mass) (hm1 : 0 ≤ (c.sp 1).mass)
    (hopen : (c.sp 0).mass + (c.sp 1).mass < (c.sp 2).mass)
    (hmax : p.a * restMomentum (c.sp 0).mass (c.sp 1).mass (c.sp 2).mass < c.max2)
    (hcutb : CutBounds c p) (hub : ∃ g ∈ (c.sp 0).grid, 0 < g ∧ g < c.ub) (hcov : Covers c p sched)
    (hocc : ∀ i q, 0 ≤ q → occAt (toC (c.sp i) (c.st i) p) q = .ok (f i q)) (hf0 : ∀ i q, 0 ≤ q → 0 ≤ f i q)
    (hf : ∀ i, Measurable (f i)) (c0 : ContinuousWithinAt (f 0) (Set.Ici 0) 0)
    (c12 : ∀ i, i ≠ 0 → ContinuousAt (f i) (p.a / p.aT * restMomentum (c.sp 0).mass (c.sp 1).mass (c.sp 2).mass)) :
    ∃ (J : ℝ → ℝ) (A B : List ℝ), integrate3 c p sched = .ok (.two A B) ∧ A.head? = some (J 0) ∧
      (∀ y, 0 < y → rateAt3 c p y = .ok (J y)) ∧ ContinuousWithinAt J (Set.Ici 0) 0 := by
  have hmass : ∀ i, (c.reaction p i).specie.m = p.a / p.aT * (c.sp i).mass := by
    intro i; change (c.sp i).mass * p.a / p.aT = _; ring
  have hb : 0 < p.a / p.aT := by positivity
  have hk : restMomentum (c.reaction p 0).specie.m (c.reaction p 1).specie.m (c.reaction p 2).specie.m =
      p.a / p.aT * restMomentum (c.sp 0).mass (c.sp 1).mass (c.sp 2).mass := by
    rw [hmass, hmass, hmass, restMomentum_scale _ _ _ _ hb]
  obtain ⟨I, hI, hlim⟩ := C133_inside_partial (c.reaction p) f (c.max2 / p.aT) hside.1 hside.2.1 hside.2.2
    (by rw [hmass]; positivity) (by rw [hmass]; positivity)
    (by rw [hmass, hmass, hmass, ← mul_add]; exact mul_lt_mul_of_pos_left hopen hb)
    (by rw [hk, lt_div_iff₀ haT, div_mul_eq_mul_div, div_mul_cancel₀ _ haT.ne']; exact hmax) hocc hf0 hf c0
    (by rw [hk]; exact c12 1 (by decide)) (by rw [hk]; exact c12 2 (by decide))
  obtain ⟨A, B, h, hA⟩ := product_head c p sched f I haT ha hside hpl hm0 hcutb hub hcov hocc hf0 hI
  set κ := common3 c.K p / dofFactor c.majorana (c.sp 0).dof * c.mult with hκ
  set J : ℝ → ℝ := fun y => if y = 0 then 4 / (c.reaction p 0).specie.m ^ 2 * I 0 * κ else I (y / p.aT) * κ with hJ
  have e0 : J 0 = 4 / (c.reaction p 0).specie.m ^ 2 * I 0 * κ := by rw [hJ]; simp
  refine ⟨J, A, B, h, by rw [hA, e0], fun y hy => ?_, ?_⟩
  · have := hI [y / p.aT] (c.min1 / p.aT) (c.max1 / p.aT) [[0]] (by simp; positivity) (by simp [ValidSchedule])
    unfold rateAt3
    rw [this]
    simp only [List.map_cons, List.map_nil, hJ, if_neg hy.ne']
    rw [hκ]
  · have hd : Tendsto (fun y : ℝ => y / p.aT) (𝓝[>] 0) (𝓝[>] 0) := by
      refine tendsto_nhdsWithin_iff.mpr ⟨?_, ?_⟩
      · apply tendsto_nhdsWithin_of_tendsto_nhds
        have : Continuous fun y : ℝ => y / p.aT := by fun_prop
        simpa using this.tendsto 0
      · filter_upwards [self_mem_nhdsWithin] with y hy
        exact div_pos hy haT
    rw [← Set.Ioi_insert, continuousWithinAt_insert_self]
    unfold ContinuousWithinAt
    rw [e0]
    refine Tendsto.congr' ?_ ((hlim.comp hd).mul_const κ)
    filter_upwards [self_mem_nhdsWithin] with y hy
    have hy : 0 < y := hy
    simp only [hJ, if_neg hy.ne', Function.comp]

/-- **C133 fails beyond the grid.** If that momentum is beyond the end of the grid, what the loop computes for slow products
is 0, but the first entry of the array is not, unless the gains and losses at that momentum cancel. -/
theorem C133_jump (c : Int3 ι) (p : Params) (sched : List (List ℕ)) (f : Fin 3 → ℝ → ℝ)
    (haT : 0 < p.aT) (ha : 0 < p.a) (hside : c.side 0 = -1 ∧ c.side 1 = -1 ∧ c.side 2 = 1) (hpl : Plain c)
    (hm0 : 0 < (c.sp 0).mass) (hm1 : 0 ≤ (c.sp 1).mass)
    (hopen : (c.sp 0).mass + (c.sp 1).mass < (c.sp 2).mass) (hmax0 : 0 ≤ c.max2)
    (hmax : c.max2 < p.a * restMomentum (c.sp 0).mass (c.sp 1).mass (c.sp 2).mass)
    (hcutb : CutBounds c p) (hub : ∃ g ∈ (c.sp 0).grid, 0 < g ∧ g < c.ub) (hcov : Covers c p sched)
    (hocc : ∀ i q, 0 ≤ q → occAt (toC (c.sp i) (c.st i) p) q = .ok (f i q)) (hf0 : ∀ i q, 0 ≤ q → 0 ≤ f i q)
    (hK : common3 c.K p ≠ 0)
    (hnet : netFlux (c.reaction p) (fun i =>
      f i ((![0, p.a / p.aT * restMomentum (c.sp 0).mass (c.sp 1).mass (c.sp 2).mass,
        p.a / p.aT * restMomentum (c.sp 0).mass (c.sp 1).mass (c.sp 2).mass] : Fin 3 → ℝ) i)) ≠ 0) :
    ∃ (A B : List ℝ) (v : ℝ), integrate3 c p sched = .ok (.two A B) ∧ A.head? = some v ∧ v ≠ 0 ∧
      ∃ ε > 0, ∀ y, 0 < y → y < ε → rateAt3 c p y = .ok 0 := by
  have hmass : ∀ i, (c.reaction p i).specie.m = p.a / p.aT * (c.sp i).mass := by
    intro i; change (c.sp i).mass * p.a / p.aT = _; ring
  have hb : 0 < p.a / p.aT := by positivity
  have n0 : 0 < (c.reaction p 0).specie.m := by rw [hmass]; positivity
  have hk : restMomentum (c.reaction p 0).specie.m (c.reaction p 1).specie.m (c.reaction p 2).specie.m =
      p.a / p.aT * restMomentum (c.sp 0).mass (c.sp 1).mass (c.sp 2).mass := by
    rw [hmass, hmass, hmass, restMomentum_scale _ _ _ _ hb]
  obtain ⟨I, hI, ⟨ε, hε, hz⟩, h0⟩ := C133_beyond (c.reaction p) f (c.max2 / p.aT) hside.1 hside.2.1 hside.2.2
    n0 (by rw [hmass]; positivity)
    (by rw [hmass, hmass, hmass, ← mul_add]; exact mul_lt_mul_of_pos_left hopen hb) (by positivity)
    (by rw [hk, div_lt_iff₀ haT, div_mul_eq_mul_div, div_mul_cancel₀ _ haT.ne']; exact hmax) hocc hf0
  obtain ⟨A, B, h, hA⟩ := product_head c p sched f I haT ha hside hpl hm0 hcutb hub hcov hocc hf0 hI
  refine ⟨A, B, _, h, hA, ?_, ε * p.aT, by positivity, fun y hy hy' => ?_⟩
  · rw [h0, hk]
    have := recoil_pos hm0 hm1 hopen
    exact mul_ne_zero (mul_ne_zero (by positivity) (mul_ne_zero (by positivity) hnet))
      (mul_ne_zero (div_ne_zero hK hpl.dof) hpl.mult)
  · have := hI [y / p.aT] (c.min1 / p.aT) (c.max1 / p.aT) [[0]] (by simp; positivity) (by simp [ValidSchedule])
    unfold rateAt3
    rw [this]
    simp only [List.map_cons, List.map_nil]
    rw [hz _ (by positivity) (by rwa [div_lt_iff₀ haT]), zero_mul]

/-- **C133 for stored and thermal spectra.** Nothing is assumed about the occupation numbers beyond the shape of the tables. -/
theorem C133_spectra_partial (c : Int3 ι) (p : Params) (sched : List (List ℕ))
    (haT : 0 < p.aT) (ha : 0 < p.a) (hside : c.side 0 = -1 ∧ c.side 1 = -1 ∧ c.side 2 = 1) (hpl : Plain c)
    (hm0 : 0 < (c.sp 0).mass) (hm1 : 0 ≤ (c.sp 1).mass)
    (hopen : (c.sp 0).mass + (c.sp 1).mass < (c.sp 2).mass)
    (hmax : p.a * restMomentum (c.sp 0).mass (c.sp 1).mass (c.sp 2).mass < c.max2)
    (hcutb : CutBounds c p) (hub : ∃ g ∈ (c.sp 0).grid, 0 < g ∧ g < c.ub) (hcov : Covers c p sched)
    (hsm : ∀ i, SmoothSpecies (toC (c.sp i) (c.st i) p)) :
    ∃ (J : ℝ → ℝ) (A B : List ℝ), integrate3 c p sched = .ok (.two A B) ∧ A.head? = some (J 0) ∧
      (∀ y, 0 < y → rateAt3 c p y = .ok (J y)) ∧ ContinuousWithinAt J (Set.Ici 0) 0 := by
  choose f hf h hc using fun i => smooth_occupation _ (hsm i)
  have hk := recoil_pos hm0 hm1 hopen
  exact C133_array_partial c p sched f haT ha hside hpl hm0 hm1 hopen hmax hcutb hub hcov (fun i q hq => (h i q hq).1)
    (fun i q hq => (h i q hq).2) hf (hc 0 0 Set.self_mem_Ici)
    fun i _ => (hc i).continuousAt (Ici_mem_nhds (by positivity))

section Example
/-- `b + a ← X` with masses 1, 0 and 2, all thermal, the parent twice as hot, and parents up to the momentum `P`. -/
private def prodSp : Fin 3 → Species := fun i =>
  { name := "b", mass := ![1, 0, 2] i, dof := 2, fermion := ![true, true, false] i, thermalDyn := true, Q := 0,
    grid := [0, 1], fastDecay := false, lifetime := 0 }
private noncomputable def prodSt : Fin 3 → PState ℕ := fun i =>
  { T := 1, aT := ![1, 1, 2] i, Tdec := 0, dist := [], coll := [], integrals := [],
    tDec := 0, decayed := false, density := 0, histDist := [], histColl := [], histT := [], histDensity := [] }
private noncomputable def prodP : Params :=
  { log := true, m := 1, T := 1, a := 1, aIni := 1, x := 1, y := none, aT := 1, t := 1, H := 1, rho := none,
    S := none, Neff := 3, dy := 1, dx := 1, h := 1 }
private noncomputable def prodInt (P : ℝ) : Int3 ℕ :=
  { sp := prodSp, st := prodSt, side := ![-1, -1, 1], K := 1, majorana := false, mult := 1, kind := .full,
    neglect := false, min1 := 0, max1 := 3, max2 := P,
    lb := (bounds3Creation ⟨1 * 1, false, 1, []⟩ ⟨0 * 1, true, 1, []⟩ ⟨2 * 1, false, P, []⟩).1,
    ub := (bounds3Creation ⟨1 * 1, false, 1, []⟩ ⟨0 * 1, true, 1, []⟩ ⟨2 * 1, false, P, []⟩).2,
    creationFast := false, br := none, num := 0, total := fun _ => 0 }

private theorem prod_recoil : restMomentum 1 0 2 = 3 / 2 := by
  unfold restMomentum
  rw [show (((1 : ℝ) ^ 2 - (0 + 2) ^ 2) * (1 ^ 2 - (0 - 2) ^ 2)) = 3 ^ 2 by norm_num, Real.sqrt_sq (by norm_num)]
  norm_num

private theorem prod_plain (P : ℝ) : Plain (prodInt P) :=
  ⟨rfl, rfl, rfl, ⟨1, [], rfl⟩, by change StrictInc [(0 : ℝ), 1]; norm_num [StrictInc],
    by norm_num [prodInt, prodSp, dofFactor], one_ne_zero⟩

private theorem prod_bounds (P : ℝ) : CutBounds (prodInt P) prodP :=
  ⟨_, _, _, rfl, rfl, rfl, by change false = true ↔ (1 : ℝ) = 0; norm_num, rfl, rfl⟩

private theorem prod_ub (P : ℝ) (hP : 1 ≤ P) : 1 < (prodInt P).ub := by
  change 1 < (bounds3Creation ⟨1 * 1, false, 1, []⟩ ⟨0 * 1, true, 1, []⟩ ⟨2 * 1, false, P, []⟩).2
  rw [(bounds3_eq _ _ ⟨2 * 1, false, P, []⟩ (by norm_num) (by dsimp only; linarith)).1]
  dsimp only
  have e1 : cmMomentum (2 * 1) (0 * 1) (1 * 1) = 3 / 4 := by
    unfold cmMomentum
    rw [show (((2 : ℝ) * 1) ^ 2 - (0 * 1) ^ 2 - (1 * 1) ^ 2) ^ 2 - (2 * (0 * 1) * (1 * 1)) ^ 2 = 3 ^ 2 by norm_num,
      Real.sqrt_sq (by norm_num)]
    norm_num
  have e2 : energy (3 / 4) (1 * 1) = 5 / 4 := by
    unfold energy
    rw [show (3 / 4 * (3 / 4) + 1 * 1 * (1 * 1) : ℝ) = (5 / 4) ^ 2 by norm_num, Real.sqrt_sq (by norm_num)]
  have hW : 2 ≤ energy P (2 * 1) := by
    unfold energy
    exact Real.le_sqrt_of_sq_le (by nlinarith)
  rw [e1, e2]
  apply Real.lt_sqrt_of_sq_lt
  generalize energy P (2 * 1) = W at hW
  have : 13 / 8 ≤ (W * (5 / 4) + P * (3 / 4)) / (2 * 1) := by
    rw [le_div_iff₀ (by norm_num)]; linarith
  nlinarith

private theorem prod_covers (P : ℝ) (hP : 1 ≤ P) : Covers (prodInt P) prodP [[0, 1]] := by
  intro s hs
  have hub := prod_ub P hP
  have hlb : (prodInt P).lb = 0 := by
    change (bounds3Creation ⟨1 * 1, false, 1, []⟩ ⟨0 * 1, true, 1, []⟩ ⟨2 * 1, false, P, []⟩).1 = 0
    rw [(bounds3_eq _ _ ⟨2 * 1, false, P, []⟩ (by norm_num) (by dsimp only; linarith)).2]
    rfl
  have hlen : s.points.length = 2 := by
    unfold cutoff3 gridCutoff3 at hs
    rw [if_pos (show pyCreation ((prodInt P).side 0 + (prodInt P).side 1 + (prodInt P).side 2) = true from
      (by decide : pyCreation (-1 + -1 + 1) = true))] at hs
    change (if ∃ x ∈ (gridBounds3 [0, 1] (prodInt P).lb (prodInt P).ub).points, x ≠ 0 then _ else _) = _ at hs
    rcases C47_three [0, 1] (by simp) (by norm_num [StrictInc]) (prodInt P).lb (prodInt P).ub (by linarith)
      (by simp) with ⟨lo, hi, h1, h2, h3, h4, h5, h6, -⟩ | ⟨h1, -⟩
    · rw [if_pos h6] at hs
      obtain rfl := Option.some.inj hs
      have h2 : hi < 2 := h2
      obtain rfl : lo = 0 := by omega
      obtain rfl : hi = 1 := by omega
      change ((gridBounds3 [0, 1] (prodInt P).lb (prodInt P).ub).points.map (· / (1 : ℝ))).length = 2
      rw [h4]
      rfl
    · rw [if_neg (by rw [h1]; simp)] at hs
      cases hs
  rw [hlen]
  simp [ValidSchedule]
  decide

private noncomputable def prodOcc : Fin 3 → ℝ → ℝ := fun i q =>
  1 / (Real.exp (energy q (toC (prodSp i) (prodSt i) prodP).m / (toC (prodSp i) (prodSt i) prodP).T) +
    (toC (prodSp i) (prodSt i) prodP).eta)

private theorem prod_occ (i : Fin 3) (q : ℝ) : occAt (toC (prodSp i) (prodSt i) prodP) q = .ok (prodOcc i q) := by
  unfold occAt distributionInterpolation
  rw [if_pos (by simp [toC, inEq, prodSp, prodSt])]
  rfl

/-- Parents up to 3, beyond the momentum 3/2 of a parent whose product is at rest. -/
example : ∃ (J : ℝ → ℝ) (A B : List ℝ), integrate3 (prodInt 3) prodP [[0, 1]] = .ok (.two A B) ∧ A.head? = some (J 0) ∧
    (∀ y, 0 < y → rateAt3 (prodInt 3) prodP y = .ok (J y)) ∧ ContinuousWithinAt J (Set.Ici 0) 0 := by
  refine C133_spectra_partial _ _ _ one_pos one_pos ⟨rfl, rfl, rfl⟩ (prod_plain 3) one_pos le_rfl ?_ ?_ (prod_bounds 3)
    ⟨1, by simp [prodInt, prodSp], one_pos, prod_ub 3 (by norm_num)⟩ (prod_covers 3 (by norm_num)) ?_
  · change (1 : ℝ) + 0 < 2; norm_num
  · change 1 * restMomentum 1 0 2 < 3
    rw [prod_recoil]; norm_num
  · intro i
    refine Or.inr ⟨by simp [toC, inEq, prodInt, prodSp, prodSt], ?_, ?_, ?_⟩
    · fin_cases i <;> norm_num [toC, prodInt, prodSt, prodP]
    · fin_cases i <;> norm_num [toC, prodInt, prodSp, prodP]
    · fin_cases i
      · exact Or.inl rfl
      · exact Or.inl rfl
      · exact Or.inr ⟨rfl, by norm_num [toC, prodInt, prodSp, prodP]⟩

/-- Parents up to 1 only. -/
example : ∃ (A B : List ℝ) (v : ℝ), integrate3 (prodInt 1) prodP [[0, 1]] = .ok (.two A B) ∧ A.head? = some v ∧ v ≠ 0 ∧
    ∃ ε > 0, ∀ y, 0 < y → y < ε → rateAt3 (prodInt 1) prodP y = .ok 0 := by
  have hpos : ∀ i q, 0 ≤ q → 0 ≤ prodOcc i q := by
    intro i q hq
    unfold prodOcc
    have hE : 0 ≤ energy q (toC (prodSp i) (prodSt i) prodP).m / (toC (prodSp i) (prodSt i) prodP).T :=
      div_nonneg (energy_nonneg _ _) (by fin_cases i <;> norm_num [toC, prodSt, prodP])
    have h1 := Real.one_le_exp hE
    have h2 : (-1 : ℝ) ≤ (toC (prodSp i) (prodSt i) prodP).eta := by
      fin_cases i <;> norm_num [toC, prodSp, Species.eta]
    exact one_div_nonneg.mpr (by linarith)
  refine C133_jump _ _ _ prodOcc one_pos one_pos ⟨rfl, rfl, rfl⟩ (prod_plain 1) one_pos le_rfl ?_ zero_le_one ?_
    (prod_bounds 1) ⟨1, by simp [prodInt, prodSp], one_pos, prod_ub 1 le_rfl⟩ (prod_covers 1 le_rfl)
    (fun i q _ => prod_occ i q) hpos ?_ ?_
  · change (1 : ℝ) + 0 < 2; norm_num
  · change 1 < 1 * restMomentum 1 0 2
    rw [prod_recoil]; norm_num
  · unfold common3
    simp [prodInt, prodP, Real.pi_ne_zero]
  · change netFlux _ (fun i => prodOcc i ((![0, 1 / 1 * restMomentum 1 0 2, 1 / 1 * restMomentum 1 0 2] : Fin 3 → ℝ) i)) ≠ 0
    rw [prod_recoil]
    have o0 : prodOcc 0 0 = 1 / (Real.exp 1 + 1) := by
      norm_num [prodOcc, toC, prodSp, prodSt, prodP, Species.eta, energy]
    have o1 : prodOcc 1 (3 / 2) = 1 / (Real.exp (3 / 2) + 1) := by
      have : energy (3 / 2) 0 = 3 / 2 := by
        unfold energy; rw [mul_zero, add_zero, Real.sqrt_mul_self (by norm_num)]
      norm_num [prodOcc, toC, prodSp, prodSt, prodP, Species.eta, this]
    have o2 : prodOcc 2 (3 / 2) = 1 / (Real.exp (5 / 4) - 1) := by
      have : energy (3 / 2) 2 = 5 / 2 := by
        unfold energy
        rw [show (3 / 2 * (3 / 2) + 2 * 2 : ℝ) = (5 / 2) ^ 2 by norm_num, Real.sqrt_sq (by norm_num)]
      have e : prodOcc 2 (3 / 2) = 1 / (Real.exp (energy (3 / 2) (2 * 1 / 1) / (2 / 1)) + ((-1 : ℤ) : ℝ)) := rfl
      rw [e, mul_one, div_one, this]
      norm_num [sub_eq_add_neg]
    have x1 : Real.exp (3 / 2) = Real.exp (5 / 4) * Real.exp (1 / 4) := by rw [← Real.exp_add]; norm_num
    have x2 : 1 < Real.exp (5 / 4) := Real.one_lt_exp_iff.mpr (by norm_num)
    have x3 : 1 < Real.exp (1 / 4) := Real.one_lt_exp_iff.mpr (by norm_num)
    have x4 : 1 < Real.exp 1 := Real.one_lt_exp_iff.mpr one_pos
    have h : 0 < netFlux ((prodInt 1).reaction prodP) (fun i => prodOcc i ((![0, 1 / 1 * (3 / 2), 1 / 1 * (3 / 2)] : Fin 3 → ℝ) i)) := by
      have e : netFlux ((prodInt 1).reaction prodP)
          (fun i => prodOcc i ((![0, 1 / 1 * (3 / 2), 1 / 1 * (3 / 2)] : Fin 3 → ℝ) i)) =
          (1 - prodOcc 0 0) * (1 - prodOcc 1 (3 / 2)) * prodOcc 2 (3 / 2) -
            prodOcc 0 0 * prodOcc 1 (3 / 2) * (1 + prodOcc 2 (3 / 2)) := by
        have z0 : ((prodInt 1).reaction prodP 0).side = -1 := rfl
        have z1 : ((prodInt 1).reaction prodP 1).side = -1 := rfl
        have z2 : ((prodInt 1).reaction prodP 2).side = 1 := rfl
        have y0 : ((prodInt 1).reaction prodP 0).specie.eta = 1 := rfl
        have y1 : ((prodInt 1).reaction prodP 1).specie.eta = 1 := rfl
        have y2 : ((prodInt 1).reaction prodP 2).specie.eta = -1 := rfl
        unfold netFlux flux
        rw [Fin.prod_univ_three, Fin.prod_univ_three]
        norm_num [z0, z1, z2, y0, y1, y2]
        rfl
      rw [e, o0, o1, o2, x1]
      have d : 0 < Real.exp (5 / 4) - 1 := by linarith
      have hx : (1 - 1 / (Real.exp 1 + 1)) * (1 - 1 / (Real.exp (5 / 4) * Real.exp (1 / 4) + 1)) *
          (1 / (Real.exp (5 / 4) - 1)) - 1 / (Real.exp 1 + 1) * (1 / (Real.exp (5 / 4) * Real.exp (1 / 4) + 1)) *
          (1 + 1 / (Real.exp (5 / 4) - 1)) = (Real.exp 1 * (Real.exp (5 / 4) * Real.exp (1 / 4)) - Real.exp (5 / 4)) /
          ((Real.exp 1 + 1) * (Real.exp (5 / 4) * Real.exp (1 / 4) + 1) * (Real.exp (5 / 4) - 1)) := by
        field_simp
        ring
      rw [hx]
      apply div_pos _ (by positivity)
      have : 1 < Real.exp 1 * Real.exp (1 / 4) := by nlinarith
      nlinarith
    exact h.ne'
end Example

end PyBBN
