import Verif.Props.Balance4
import Verif.Props.Entropy
import Mathlib.MeasureTheory.Function.AEEqOfIntegral
/-!
# C105: decays never decrease the entropy

The totals of C93 and C102 with the derivative of the entropy per mode as weight.
-/
namespace PyBBN
open MeasureTheory

/-- Occupation numbers up to the momentum `Q` which stay away from an empty and (fermions) from a full mode. -/
def PartlyTo (eta : ℤ) (f : ℝ → ℝ) (Q : ℝ) : Prop :=
  ∃ δ U, 0 < δ ∧ ∀ p, 0 ≤ p → p ≤ Q → δ ≤ f p ∧ f p ≤ U ∧ eta * f p ≤ 1 - δ

theorem PartlyTo.partly {eta : ℤ} {f : ℝ → ℝ} {Q p : ℝ} (h : PartlyTo eta f Q) (he : eta = 1 ∨ eta = -1) (h0 : 0 ≤ p)
    (hp : p ≤ Q) : Partly eta (f p) := by
  obtain ⟨δ, U, hδ, h⟩ := h
  obtain ⟨a, b, c⟩ := h p h0 hp
  exact ⟨he, by linarith, by linarith⟩

/-- The derivative of the entropy per mode as a function of the energy, up to the momentum `Q`. -/
noncomputable def entropyWeight (m : ℝ) (eta : ℤ) (f : ℝ → ℝ) (Q E : ℝ) : ℝ :=
  open Classical in
  if m ≤ E ∧ E ≤ energyOf m Q then Real.log (1 - eta * f (momOf m E)) - Real.log (f (momOf m E)) else 0

theorem entropyWeight_measurable (m : ℝ) (eta : ℤ) {f : ℝ → ℝ} (hf : Measurable f) (Q : ℝ) :
    Measurable (entropyWeight m eta f Q) := by
  unfold entropyWeight
  have hm : Measurable (momOf m) := by unfold momOf; fun_prop
  have hg := hf.comp hm
  refine Measurable.ite ?_ ?_ measurable_const
  · exact (measurableSet_le measurable_const measurable_id).inter (measurableSet_le measurable_id measurable_const)
  · exact (Real.measurable_log.comp (measurable_const.sub (hg.const_mul (eta : ℝ)))).sub (Real.measurable_log.comp hg)

theorem abs_log_le {δ U x : ℝ} (hδ : 0 < δ) (h1 : δ ≤ x) (h2 : x ≤ U) : |Real.log x| ≤ |Real.log δ| + |Real.log U| := by
  have a := Real.log_le_log hδ h1
  have b := Real.log_le_log (hδ.trans_le h1) h2
  have c := neg_abs_le (Real.log δ)
  have d := le_abs_self (Real.log U)
  have e := abs_nonneg (Real.log δ)
  have g := abs_nonneg (Real.log U)
  rw [abs_le]
  constructor <;> linarith

theorem entropyWeight_bounded {m : ℝ} {eta : ℤ} {f : ℝ → ℝ} {Q : ℝ} (hm : 0 ≤ m) (hQ : 0 ≤ Q)
    (he : eta = 1 ∨ eta = -1) (h : PartlyTo eta f Q) : ∃ C, ∀ E, |entropyWeight m eta f Q E| ≤ C := by
  obtain ⟨δ, U, hδ, h⟩ := h
  refine ⟨(|Real.log δ| + |Real.log (1 + U)|) + (|Real.log δ| + |Real.log U|), fun E => ?_⟩
  unfold entropyWeight
  split_ifs with hE
  · obtain ⟨a, b, c⟩ := h (momOf m E) (Real.sqrt_nonneg _) ((momOf_le _ _ _ hm hE.1 hQ).mpr hE.2)
    refine (abs_sub _ _).trans (add_le_add (abs_log_le hδ (by linarith) ?_) (abs_log_le hδ a b))
    rcases he with rfl | rfl
    · push_cast; linarith
    · push_cast; linarith
  · rw [abs_zero]; positivity

/-- At a momentum inside the range the weight is the derivative of the entropy of the mode. -/
theorem entropyWeight_inside {m : ℝ} {eta : ℤ} {f : ℝ → ℝ} {Q p : ℝ} (he : eta = 1 ∨ eta = -1)
    (h : PartlyTo eta f Q) (h0 : 0 ≤ p) (hp : p ≤ Q) :
    entropyWeight m eta f Q (energyOf m p) = deriv (modeEntropy eta) (f p) := by
  unfold entropyWeight
  rw [momOf_energyOf _ _ h0, (modeEntropy_deriv (h.partly he h0 hp)).deriv, if_pos]
  refine ⟨?_, ?_⟩
  · exact Real.le_sqrt_of_sq_le (by nlinarith)
  · exact Real.sqrt_le_sqrt (by nlinarith)

theorem entropyWeight_outside {m : ℝ} {eta : ℤ} {f : ℝ → ℝ} {Q p : ℝ} (hm : 0 ≤ m) (hQ : 0 ≤ Q) (hp : Q < p) :
    entropyWeight m eta f Q (energyOf m p) = 0 := by
  unfold entropyWeight
  rw [if_neg]
  rintro ⟨h1, h2⟩
  have := (momOf_le m _ Q hm h1 hQ).mpr h2
  rw [momOf_energyOf _ _ (hQ.trans hp.le)] at this
  linarith

/-- The entropy released per event times the net rate of events is not negative. -/
theorem flux_entropy {n : ℕ} (r : Fin n → Reactant) (x : Fin n → ℝ) (hs : ∀ i, (r i).side = 1 ∨ (r i).side = -1)
    (hp : ∀ i, Partly (r i).specie.eta (x i)) :
    0 ≤ (∑ i, -((r i).side : ℝ) * (Real.log (1 - (r i).specie.eta * x i) - Real.log (x i))) *
        (flux r x 1 - flux r x (-1)) ∧
      ((∑ i, -((r i).side : ℝ) * (Real.log (1 - (r i).specie.eta * x i) - Real.log (x i))) *
        (flux r x 1 - flux r x (-1)) = 0 → flux r x 1 - flux r x (-1) = 0) := by
  have hb : ∀ i, 0 < 1 - ((r i).specie.eta : ℝ) * x i := fun i => by linarith [(hp i).2.2]
  have hpos : ∀ t i, 0 < (if (r i).side = t then x i else 1 - (r i).specie.eta * x i) := by
    intro t i
    split_ifs
    · exact (hp i).2.1
    · exact hb i
  have hf : ∀ t, 0 < flux r x t := fun t => Finset.prod_pos fun i _ => hpos t i
  have hl : ∀ t, Real.log (flux r x t) =
      ∑ i, Real.log (if (r i).side = t then x i else 1 - (r i).specie.eta * x i) :=
    fun t => Real.log_prod fun i _ => (hpos t i).ne'
  have e : (∑ i, -((r i).side : ℝ) * (Real.log (1 - (r i).specie.eta * x i) - Real.log (x i))) =
      Real.log (flux r x 1) - Real.log (flux r x (-1)) := by
    rw [hl, hl, ← Finset.sum_sub_distrib]
    refine Finset.sum_congr rfl fun i _ => ?_
    rcases hs i with h | h
    · rw [h, if_pos rfl, if_neg (by decide)]; push_cast; ring
    · rw [h, if_pos rfl, if_neg (by decide)]; push_cast; ring
  rw [e]
  constructor
  · rcases le_total (flux r x (-1)) (flux r x 1) with h | h
    · exact mul_nonneg (by linarith [Real.log_le_log (hf (-1)) h]) (by linarith)
    · exact mul_nonneg_of_nonpos_of_nonpos (by linarith [Real.log_le_log (hf 1) h]) (by linarith)
  · intro h
    rcases mul_eq_zero.mp h with h | h
    · have := Real.log_injOn_pos (Set.mem_Ioi.mpr (hf 1)) (Set.mem_Ioi.mpr (hf (-1))) (by linarith)
      linarith
    · exact h

/-- Non-negative coefficients make the kernel non-negative. -/
theorem kern_nonneg (r : Fin 4 → Reactant) (Ms : List CM) (hs : ∀ i, (r i).side = 1 ∨ (r i).side = -1)
    (hm : ∀ i, 0 ≤ (r i).specie.m) (ho : ∀ M ∈ Ms, M.order.Bijective) (hK : ∀ M ∈ Ms, 0 ≤ M.K1 ∧ 0 ≤ M.K2)
    (p E : Fin 4 → ℝ) (hp : ∀ i, 0 ≤ p i) (hE : ∀ i, p i ≤ E i) : 0 ≤ kern r Ms p E := by
  unfold kern
  apply List.sum_nonneg
  intro v hv
  obtain ⟨M, hM, rfl⟩ := List.mem_map.mp hv
  have h := C63_nonneg p E (fun i => (r i).specie.m) M.K1 M.K2 (Equiv.ofBijective _ (ho M hM)) (fun i => (r i).side)
    hs hp hE hm (hK M hM).1 (hK M hM).2
  rw [C63_average p E _ _ _ _ _ hp] at h
  exact h

/-! ## Totals of non-negative densities -/

/-- A function with vanishing integrals over all sets of positive momenta up to a bound vanishes there. -/
theorem vanish_of_totals {m : ℝ} {S : Set ℝ} (hS : MeasurableSet S) (hpos : ∀ p ∈ S, 0 < p) {I : ℝ → ℝ}
    (hi : IntegrableOn (fun p => p ^ 2 * I p) S)
    (h : ∀ q : ℝ → ℝ, Measurable q → (∀ E, |q E| ≤ 1) → ∫ p in S, p ^ 2 * q (energyOf m p) * I p = 0) :
    ∀ᵐ p ∂volume.restrict S, I p = 0 := by
  classical
  have hz : ∀ᵐ p ∂volume.restrict S, p ^ 2 * I p = 0 := by
    apply Integrable.ae_eq_zero_of_forall_setIntegral_eq_zero hi
    intro T hT _
    have h' := h (fun E => T.indicator 1 (momOf m E))
      ((measurable_one.indicator hT).comp (momOf_measurable m)) (fun E => by
        by_cases hE : momOf m E ∈ T
        · simp [Set.indicator_of_mem hE]
        · simp [Set.indicator_of_notMem hE])
    rw [← integral_indicator hT, ← h']
    apply setIntegral_congr_fun hS
    intro p hp
    dsimp only
    rw [momOf_energyOf _ _ (hpos p hp).le]
    by_cases hT' : p ∈ T
    · rw [Set.indicator_of_mem hT', Set.indicator_of_mem hT']; simp
    · rw [Set.indicator_of_notMem hT', Set.indicator_of_notMem hT']; simp
  filter_upwards [hz, ae_restrict_mem hS] with p h1 h2
  rcases mul_eq_zero.mp h1 with h3 | h3
  · exact absurd h3 (pow_pos (hpos p h2) 2).ne'
  · exact h3

/-- Restriction of a weighted total to the range of the weight. -/
theorem total_inside {m : ℝ} {eta : ℤ} {f I : ℝ → ℝ} {Q : ℝ} (hm : 0 ≤ m) (hQ : 0 ≤ Q) (he : eta = 1 ∨ eta = -1)
    (h : PartlyTo eta f Q)
    (hi : IntegrableOn (fun p => p ^ 2 * entropyWeight m eta f Q (energyOf m p) * I p) (Set.Ioi 0)) :
    IntegrableOn (fun p => p ^ 2 * deriv (modeEntropy eta) (f p) * I p) (Set.Ioc 0 Q) ∧
      ∫ p in Set.Ioi 0, p ^ 2 * entropyWeight m eta f Q (energyOf m p) * I p =
        ∫ p in Set.Ioc 0 Q, p ^ 2 * deriv (modeEntropy eta) (f p) * I p := by
  have hsub : Set.Ioc 0 Q ⊆ Set.Ioi (0 : ℝ) := fun p hp => hp.1
  have e : Set.EqOn (fun p => p ^ 2 * entropyWeight m eta f Q (energyOf m p) * I p)
      (fun p => p ^ 2 * deriv (modeEntropy eta) (f p) * I p) (Set.Ioc 0 Q) := by
    intro p hp
    dsimp only
    rw [entropyWeight_inside he h hp.1.le hp.2]
  refine ⟨(hi.mono_set hsub).congr_fun e measurableSet_Ioc, ?_⟩
  rw [← setIntegral_congr_fun measurableSet_Ioc e]
  apply setIntegral_eq_of_subset_of_forall_sdiff_eq_zero measurableSet_Ioi hsub
  intro p hp
  have : Q < p := by
    by_contra hn
    exact hp.2 ⟨hp.1, not_lt.mp hn⟩
  rw [entropyWeight_outside hm hQ this]; ring

section
variable {r : Fin 4 → Reactant} {Ms : List CM} {f : Fin 4 → ℝ → ℝ} {P : ℝ}

/-- **C105, three-body decays.** For `X → a + b + c` and its inverse with arbitrary spectra which are neither empty nor
full: the collision integrals `A + f B` which the four species compute change their spectra such that the total
entropy does not decrease; it stays the same only if nothing changes at all. -/
theorem C105_three_body (d : Decay4 r Ms f) (hP : 0 ≤ P) (σ : Fin 4 → Equiv.Perm (Fin 4)) (h0 : ∀ i, σ i 0 = i)
    (h3 : ∀ i, i ≠ 0 → σ i 3 = 0) (max1 min2 max2 : Fin 4 → ℝ) (max3 : ℝ) (Q : Fin 4 → ℝ) (hQ0 : Q 0 = P)
    (hQ : ∀ i, 0 ≤ Q i) (hpart : ∀ i, PartlyTo (r i).specie.eta (f i) (Q i))
    (hreach : ∀ i, i ≠ 0 → energyOf (r 0).specie.m P ≤
      energyOf (r i).specie.m (Q i) + (r (σ i 1)).specie.m + (r (σ i 2)).specie.m)
    (hkern : ∀ p E : Fin 4 → ℝ, (∀ i, 0 ≤ p i) → (∀ i, E i = energyOf (r i).specie.m (p i)) →
      E 0 = E 1 + E 2 + E 3 → 0 ≤ kern r Ms p E) :
    ∃ A B : Fin 4 → ℝ → ℝ, Samples4 r Ms σ P max1 min2 max2 max3 A B ∧
      (∀ i, i ≠ 0 → ∀ p, 0 < p → A i p + f i p * B i p ≠ 0 →
        energyOf (r i).specie.m p + (r (σ i 1)).specie.m + (r (σ i 2)).specie.m ≤ energyOf (r 0).specie.m P) ∧
      (∀ i, i ≠ 0 → ∀ p, Q i < p → A i p + f i p * B i p = 0) ∧
      (∀ i, IntegrableOn (fun p => p ^ 2 * deriv (modeEntropy (r i).specie.eta) (f i p) *
        (A i p + f i p * B i p)) (Set.Ioc 0 (Q i))) ∧
      0 ≤ ∑ i, ∫ p in Set.Ioc 0 (Q i), p ^ 2 * deriv (modeEntropy (r i).specie.eta) (f i p) *
        (A i p + f i p * B i p) ∧
      ((∑ i, ∫ p in Set.Ioc 0 (Q i), p ^ 2 * deriv (modeEntropy (r i).specie.eta) (f i p) *
        (A i p + f i p * B i p)) = 0 →
        ∀ i, ∀ᵐ p ∂volume.restrict (Set.Ioc 0 (Q i)), A i p + f i p * B i p = 0) := by
  obtain ⟨A, B, hs, hsup, hq⟩ := C102_totals d hP σ h0 h3 max1 min2 max2 max3
  let w : Fin 4 → ℝ → ℝ := fun i => entropyWeight (r i).specie.m (r i).specie.eta (f i) (Q i)
  have hwb : ∀ S, ∃ C, ∀ i E, |E| ≤ S → |w i E| ≤ C := by
    intro S
    choose C hC using fun i => entropyWeight_bounded (d.masses i) (hQ i) (d.eta i) (hpart i)
    have hC0 : ∀ i, 0 ≤ C i := fun i => (abs_nonneg _).trans (hC i 0)
    exact ⟨∑ i, C i, fun i E _ => (hC i E).trans (Finset.single_le_sum (fun j _ => hC0 j) (Finset.mem_univ i))⟩
  obtain ⟨j0, j1, hn, ht⟩ := hq w (fun i => entropyWeight_measurable _ _ (d.meas i) _) hwb
  -- every event releases entropy
  have hpt : ∀ x y z : ℝ, 0 ≤ (w 0 (x + y + z) - w 1 x - w 2 y - w 3 z) * events4 r Ms f P ![x + y + z, x, y, z] ∧
      ((w 0 (x + y + z) - w 1 x - w 2 y - w 3 z) * events4 r Ms f P ![x + y + z, x, y, z] = 0 →
        events4 r Ms f P ![x + y + z, x, y, z] = 0) := by
    intro x y z
    by_cases he : events4 r Ms f P ![x + y + z, x, y, z] = 0
    · rw [he, mul_zero]; exact ⟨le_rfl, fun _ => rfl⟩
    set e : Fin 4 → ℝ := ![x + y + z, x, y, z] with hedef
    obtain ⟨ha, hb⟩ := events4_support he
    have hsum : e 0 = e 1 + e 2 + e 3 := rfl
    have hle : ∀ i, e i ≤ energyOf (r i).specie.m (Q i) := by
      intro i
      by_cases hi : i = 0
      · subst hi; rw [hQ0]; exact hb
      · have hr := hreach i hi
        have h1 := ha (σ i 1)
        have h2 := ha (σ i 2)
        have htot : e (σ i 0) + e (σ i 1) + e (σ i 2) = e 0 := by
          have hall := Equiv.sum_comp (σ i) e
          rw [Fin.sum_univ_four, Fin.sum_univ_four, h3 i hi] at hall
          linarith
        rw [h0 i] at htot
        linarith
    set u : Fin 4 → ℝ := fun i => f i (momOf (r i).specie.m (e i)) with hu
    have hw : ∀ i, w i (e i) = Real.log (1 - (r i).specie.eta * u i) - Real.log (u i) := by
      intro i
      change entropyWeight _ _ _ _ _ = _
      unfold entropyWeight
      exact if_pos ⟨ha i, hle i⟩
    have hpu : ∀ i, Partly (r i).specie.eta (u i) := fun i =>
      (hpart i).partly (d.eta i) (Real.sqrt_nonneg _) ((momOf_le _ _ _ (d.masses i) (ha i) (hQ i)).mpr (hle i))
    obtain ⟨f1, f2⟩ := flux_entropy r u d.sides hpu
    have hW : (∑ i, -((r i).side : ℝ) * (Real.log (1 - (r i).specie.eta * u i) - Real.log (u i))) =
        w 0 (x + y + z) - w 1 x - w 2 y - w 3 z := by
      rw [Fin.sum_univ_four, ← hw, ← hw, ← hw, ← hw, d.parent, d.products 1 (by decide), d.products 2 (by decide),
        d.products 3 (by decide)]
      change _ * w 0 (x + y + z) + _ * w 1 x + _ * w 2 y + _ * w 3 z = _
      push_cast
      ring
    rw [hW] at f1 f2
    have hk : 0 ≤ kern r Ms (fun i => momOf (r i).specie.m (e i)) e :=
      hkern _ _ (fun i => Real.sqrt_nonneg _) (fun i => (energyOf_momOf _ _ (d.masses i) (ha i)).symm) hsum
    have hev : events4 r Ms f P e = kern r Ms (fun i => momOf (r i).specie.m (e i)) e *
        (flux r u 1 - flux r u (-1)) := by
      unfold events4
      exact if_pos ⟨ha, hb⟩
    have hkne : kern r Ms (fun i => momOf (r i).specie.m (e i)) e ≠ 0 := fun h => he (by rw [hev, h, zero_mul])
    rw [hev, mul_left_comm]
    refine ⟨mul_nonneg hk f1, fun h => ?_⟩
    rw [f2 ((mul_eq_zero.mp h).resolve_left hkne), mul_zero]
  -- the total in terms of the derivatives of the entropy
  have jw : ∀ i, IntegrableOn (fun p => p ^ 2 * deriv (modeEntropy (r i).specie.eta) (f i p) *
        (A i p + f i p * B i p)) (Set.Ioc 0 (Q i)) ∧ (i ≠ 0 →
        ∫ p in Set.Ioi 0, p ^ 2 * w i (energyOf (r i).specie.m p) * (A i p + f i p * B i p) =
        ∫ p in Set.Ioc 0 (Q i), p ^ 2 * deriv (modeEntropy (r i).specie.eta) (f i p) * (A i p + f i p * B i p)) := by
    intro i
    by_cases hi : i = 0
    · subst hi
      refine ⟨?_, fun h => absurd rfl h⟩
      rw [hQ0]
      refine j0.congr_fun (fun p hp => ?_) measurableSet_Ioc
      change p ^ 2 * entropyWeight _ _ _ _ _ * _ = _
      rw [entropyWeight_inside (d.eta 0) (hpart 0) hp.1.le (hp.2.trans hQ0.ge)]
    · obtain ⟨a, b⟩ := total_inside (d.masses i) (hQ i) (d.eta i) (hpart i) (j1 i hi)
      exact ⟨a, fun _ => b⟩
  have t0 : ∫ p in Set.Ioc 0 P, p ^ 2 * w 0 (energyOf (r 0).specie.m p) * (A 0 p + f 0 p * B 0 p) =
      ∫ p in Set.Ioc 0 (Q 0), p ^ 2 * deriv (modeEntropy (r 0).specie.eta) (f 0 p) * (A 0 p + f 0 p * B 0 p) := by
    rw [hQ0]
    refine setIntegral_congr_fun measurableSet_Ioc fun p hp => ?_
    change p ^ 2 * entropyWeight _ _ _ _ _ * _ = _
    rw [entropyWeight_inside (d.eta 0) (hpart 0) hp.1.le (hp.2.trans hQ0.ge)]
  have htot : (∑ i, ∫ p in Set.Ioc 0 (Q i), p ^ 2 * deriv (modeEntropy (r i).specie.eta) (f i p) *
        (A i p + f i p * B i p)) =
      ∫ x, ∫ y, ∫ z, (w 0 (x + y + z) - w 1 x - w 2 y - w 3 z) * events4 r Ms f P ![x + y + z, x, y, z] := by
    rw [Fin.sum_univ_four, ← t0, ← (jw 1).2 (by decide), ← (jw 2).2 (by decide), ← (jw 3).2 (by decide)]
    exact ht
  refine ⟨A, B, hs, hsup, ?_, fun i => (jw i).1, ?_, ?_⟩
  · intro i hi p hp
    by_contra hne
    have hp0 : 0 < p := (hQ i).trans_lt hp
    have h1 := hsup i hi p hp0 hne
    have h2 := hreach i hi
    have h4 : energyOf (r i).specie.m (Q i) < energyOf (r i).specie.m p := by
      unfold energyOf
      exact Real.sqrt_lt_sqrt (by positivity) (by nlinarith [hQ i])
    linarith
  · rw [htot]
    exact integral_nonneg fun x => integral_nonneg fun y => integral_nonneg fun z => (hpt x y z).1
  · intro hz
    rw [htot, hn.integral] at hz
    have hae := (integral_eq_zero_iff_of_nonneg (fun z : ℝ × ℝ × ℝ => (hpt z.1 z.2.1 z.2.2).1) hn.integrable).mp hz
    have hev : ∀ᵐ z : ℝ × ℝ × ℝ ∂(volume.prod (volume.prod volume)),
        events4 r Ms f P ![z.1 + z.2.1 + z.2.2, z.1, z.2.1, z.2.2] = 0 := by
      filter_upwards [hae] with z h
      exact (hpt _ _ _).2 h
    have hzero : ∀ q : Fin 4 → ℝ → ℝ, (∀ i, Measurable (q i)) → (∀ S, ∃ C, ∀ i E, |E| ≤ S → |q i E| ≤ C) →
        (∫ p in Set.Ioc 0 P, p ^ 2 * q 0 (energyOf (r 0).specie.m p) * (A 0 p + f 0 p * B 0 p)) +
        (∫ p in Set.Ioi 0, p ^ 2 * q 1 (energyOf (r 1).specie.m p) * (A 1 p + f 1 p * B 1 p)) +
        (∫ p in Set.Ioi 0, p ^ 2 * q 2 (energyOf (r 2).specie.m p) * (A 2 p + f 2 p * B 2 p)) +
        (∫ p in Set.Ioi 0, p ^ 2 * q 3 (energyOf (r 3).specie.m p) * (A 3 p + f 3 p * B 3 p)) = 0 := by
      intro q hqm hqb
      obtain ⟨-, -, hn', ht'⟩ := hq q hqm hqb
      rw [ht', hn'.integral]
      apply integral_eq_zero_of_ae
      filter_upwards [hev] with z h
      rw [h, mul_zero]; rfl
    -- one species at a time
    have hone : ∀ i, ∀ g : ℝ → ℝ, Measurable g → (∀ E, |g E| ≤ 1) →
        (i = 0 → ∫ p in Set.Ioc 0 P, p ^ 2 * g (energyOf (r i).specie.m p) * (A i p + f i p * B i p) = 0) ∧
        (i ≠ 0 → ∫ p in Set.Ioi 0, p ^ 2 * g (energyOf (r i).specie.m p) * (A i p + f i p * B i p) = 0) := by
      intro i g hg hgb
      have h := hzero (fun j E => if j = i then g E else 0) (fun j => by
          by_cases h : j = i
          · simp only [h, if_true]; exact hg
          · simp only [h, if_false]; exact measurable_const)
        (fun S => ⟨1, fun j E _ => by
          by_cases h : j = i
          · simp only [h, if_true]; exact hgb E
          · simp [h]⟩)
      fin_cases i <;> simpa using h
    have hint : ∀ i, (i = 0 → IntegrableOn (fun p => p ^ 2 * (A i p + f i p * B i p)) (Set.Ioc 0 P)) ∧
        (i ≠ 0 → IntegrableOn (fun p => p ^ 2 * (A i p + f i p * B i p)) (Set.Ioi 0)) := by
      obtain ⟨a, b, -, -⟩ := hq (fun _ _ => 1) (fun _ => measurable_const) (fun S => ⟨1, fun _ _ _ => by simp⟩)
      simp only [mul_one] at a b
      intro i
      exact ⟨fun h => by subst h; exact a, b i⟩
    intro i
    by_cases hi : i = 0
    · have := vanish_of_totals measurableSet_Ioc (fun p hp => hp.1) ((hint i).1 hi)
        (fun g hg hb => (hone i g hg hb).1 hi)
      subst hi
      rw [hQ0]
      exact this
    · exact ae_restrict_of_ae_restrict_of_subset (fun p hp => hp.1)
        (vanish_of_totals measurableSet_Ioi (fun p hp => hp) ((hint i).2 hi) (fun g hg hb => (hone i g hg hb).2 hi))
end

/-- **C105, two-body decays.** For `X → a + b` and its inverse with arbitrary spectra which are neither empty nor full:
the collision integrals which the three species compute change their spectra such that the total entropy does not
decrease; it stays the same only if nothing changes at all. -/
theorem C105_two_body (r : Fin 3 → Reactant) (f : Fin 3 → ℝ → ℝ) (P : ℝ)
    (s0 : (r 0).side = -1) (s1 : (r 1).side = 1) (s2 : (r 2).side = 1)
    (hm0 : 0 < (r 0).specie.m) (hm1 : 0 ≤ (r 1).specie.m) (hm2 : 0 ≤ (r 2).specie.m)
    (hopen : (r 1).specie.m + (r 2).specie.m < (r 0).specie.m) (hP : 0 ≤ P)
    (heta : ∀ i, (r i).specie.eta = 1 ∨ (r i).specie.eta = -1)
    (hocc : ∀ i p, 0 ≤ p → occAt (r i).specie p = .ok (f i p)) (hf0 : ∀ i p, 0 ≤ p → 0 ≤ f i p)
    (hfm : ∀ i, Measurable (f i)) (Q : Fin 3 → ℝ) (hQ0 : Q 0 = P) (hQ : ∀ i, 0 ≤ Q i)
    (hpart : ∀ i, PartlyTo (r i).specie.eta (f i) (Q i))
    (hreach1 : ∀ p, 0 < p → Producible (r 0).specie.m (r 1).specie.m (r 2).specie.m P p → p ≤ Q 1)
    (hreach2 : ∀ p, 0 < p → Producible (r 0).specie.m (r 2).specie.m (r 1).specie.m P p → p ≤ Q 2) :
    ∃ I : Fin 3 → ℝ → ℝ,
      (∀ (ps : List ℝ), (∀ p ∈ ps, 0 ≤ p) → ∀ (min1 max1 max2 : ℝ) (sched : List (List ℕ)),
        ValidSchedule ps.length sched →
        integration3Exact r 0 ps min1 max1 max2 sched = .ok (ps.map (I 0)) ∧
        integration3Exact (viewA r) 0 ps min1 max1 P sched = .ok (ps.map (I 1)) ∧
        integration3Exact (viewB r) 0 ps min1 max1 P sched = .ok (ps.map (I 2))) ∧
      (∀ p, 0 < p → I 1 p ≠ 0 → Producible (r 0).specie.m (r 1).specie.m (r 2).specie.m P p) ∧
      (∀ p, 0 < p → I 2 p ≠ 0 → Producible (r 0).specie.m (r 2).specie.m (r 1).specie.m P p) ∧
      (∀ i, i ≠ 0 → ∀ p, Q i < p → I i p = 0) ∧
      (∀ i, IntegrableOn (fun p => p ^ 2 * deriv (modeEntropy (r i).specie.eta) (f i p) * I i p) (Set.Ioc 0 (Q i))) ∧
      0 ≤ ∑ i, ∫ p in Set.Ioc 0 (Q i), p ^ 2 * deriv (modeEntropy (r i).specie.eta) (f i p) * I i p ∧
      ((∑ i, ∫ p in Set.Ioc 0 (Q i), p ^ 2 * deriv (modeEntropy (r i).specie.eta) (f i p) * I i p) = 0 →
        ∀ i, ∀ᵐ p ∂volume.restrict (Set.Ioc 0 (Q i)), I i p = 0) := by
  have hm : ∀ i, 0 ≤ (r i).specie.m := by
    intro i; fin_cases i
    · exact hm0.le
    · exact hm1
    · exact hm2
  have hs : ∀ i, (r i).side = 1 ∨ (r i).side = -1 := by
    intro i; fin_cases i
    · exact Or.inr s0
    · exact Or.inl s1
    · exact Or.inl s2
  have hU : ∃ B, ∀ i p, 0 ≤ p → p ≤ Q i → |f i p| ≤ B := by
    choose δ U hδ h using hpart
    have hU0 : ∀ i, 0 ≤ U i := fun i =>
      (hf0 i 0 le_rfl).trans (h i 0 le_rfl (hQ i)).2.1
    refine ⟨∑ i, U i, fun i p h1 h2 => ?_⟩
    rw [abs_of_nonneg (hf0 i p h1)]
    exact (h i p h1 h2).2.1.trans (Finset.single_le_sum (fun j _ => hU0 j) (Finset.mem_univ i))
  obtain ⟨B, hB⟩ := hU
  have hBd : BoundedOn r f P B := by
    intro x y z hx hxP hy hz he ht
    refine ⟨hB 0 x hx.le (hxP.trans hQ0.ge), hB 1 y hy.le (hreach1 y hy ⟨z, x, hz, hx, hxP, he.symm, ht⟩),
      hB 2 z hz.le (hreach2 z hz ⟨y, x, hy, hx, hxP, by rw [he, add_comm], ?_⟩)⟩
    obtain ⟨a, b, c⟩ := ht
    exact ⟨by linarith, c, b⟩
  obtain ⟨I, hI, p1, p2, hq⟩ := C93_totals r f P B s0 s1 s2 hm0 hm1 hm2 hopen hP heta hocc hf0 hfm hBd
  let w : Fin 3 → ℝ → ℝ := fun i => entropyWeight (r i).specie.m (r i).specie.eta (f i) (Q i)
  have hwb : ∀ S, ∃ C, ∀ i E, |E| ≤ S → |w i E| ≤ C := by
    intro S
    choose C hC using fun i => entropyWeight_bounded (hm i) (hQ i) (heta i) (hpart i)
    have hC0 : ∀ i, 0 ≤ C i := fun i => (abs_nonneg _).trans (hC i 0)
    exact ⟨∑ i, C i, fun i E _ => (hC i E).trans (Finset.single_le_sum (fun j _ => hC0 j) (Finset.mem_univ i))⟩
  obtain ⟨j0, j1, j2, hn, ht⟩ := hq w (fun i => entropyWeight_measurable _ _ (hfm i) _) hwb
  have hpt : ∀ z : ℝ × ℝ, 0 ≤ (w 0 z.1 - w 1 z.2 - w 2 (z.1 - z.2)) * events r f P z.1 z.2 ∧
      ((w 0 z.1 - w 1 z.2 - w 2 (z.1 - z.2)) * events r f P z.1 z.2 = 0 → events r f P z.1 z.2 = 0) := by
    rintro ⟨x, y⟩
    dsimp only
    by_cases he : events r f P x y = 0
    · rw [he, mul_zero]; exact ⟨le_rfl, fun _ => rfl⟩
    obtain ⟨c0, c1, c2, c3, tri⟩ := events_cond he
    set e : Fin 3 → ℝ := ![x, y, x - y] with hedef
    have ha : ∀ i, (r i).specie.m ≤ e i := by
      intro i; fin_cases i
      · exact c0.le
      · exact c2.le
      · exact c3.le
    have g0 := momOf_pos _ _ (hm 0) c0
    have g1 := momOf_pos _ _ (hm 1) c2
    have g2 := momOf_pos _ _ (hm 2) c3
    have gP : momOf (r 0).specie.m x ≤ P := (momOf_le _ _ _ (hm 0) c0.le hP).mpr c1
    have es0 := energyOf_momOf _ _ (hm 0) c0.le
    have es1 := energyOf_momOf _ _ (hm 1) c2.le
    have es2 := energyOf_momOf _ _ (hm 2) c3.le
    have l1 : momOf (r 1).specie.m y ≤ Q 1 :=
      hreach1 _ g1 ⟨_, _, g2, g0, gP, by rw [es1, es2, es0]; ring, tri⟩
    have l2 : momOf (r 2).specie.m (x - y) ≤ Q 2 :=
      hreach2 _ g2 ⟨_, _, g1, g0, gP, by rw [es1, es2, es0]; ring, ⟨by linarith [tri.1], tri.2.2, tri.2.1⟩⟩
    have hle : ∀ i, momOf (r i).specie.m (e i) ≤ Q i := by
      intro i; fin_cases i
      · exact gP.trans hQ0.ge
      · exact l1
      · exact l2
    set u : Fin 3 → ℝ := fun i => f i (momOf (r i).specie.m (e i)) with hu
    have hw : ∀ i, w i (e i) = Real.log (1 - (r i).specie.eta * u i) - Real.log (u i) := by
      intro i
      change entropyWeight _ _ _ _ _ = _
      unfold entropyWeight
      exact if_pos ⟨ha i, (momOf_le _ _ _ (hm i) (ha i) (hQ i)).mp (hle i)⟩
    obtain ⟨f1, f2⟩ := flux_entropy r u hs fun i => (hpart i).partly (heta i) (Real.sqrt_nonneg _) (hle i)
    have hW : (∑ i, -((r i).side : ℝ) * (Real.log (1 - (r i).specie.eta * u i) - Real.log (u i))) =
        w 0 x - w 1 y - w 2 (x - y) := by
      rw [Fin.sum_univ_three, ← hw, ← hw, ← hw, s0, s1, s2]
      change _ * w 0 x + _ * w 1 y + _ * w 2 (x - y) = _
      push_cast
      ring
    rw [hW] at f1 f2
    have huv : u = ![f 0 (momOf (r 0).specie.m x), f 1 (momOf (r 1).specie.m y), f 2 (momOf (r 2).specie.m (x - y))] := by
      funext i; fin_cases i <;> rfl
    have hev : events r f P x y = 2 * (flux r u 1 - flux r u (-1)) := by
      rw [huv]
      unfold events
      exact if_pos ⟨c0, c1, c2, c3, tri⟩
    rw [hev, mul_left_comm]
    refine ⟨mul_nonneg (by norm_num) f1, fun h => ?_⟩
    rw [f2 ((mul_eq_zero.mp h).resolve_left (by norm_num)), mul_zero]
  have e0 : Set.EqOn (fun p => p ^ 2 * w 0 (energyOf (r 0).specie.m p) * I 0 p)
      (fun p => p ^ 2 * deriv (modeEntropy (r 0).specie.eta) (f 0 p) * I 0 p) (Set.Ioc 0 P) := by
    intro p hp
    change p ^ 2 * entropyWeight _ _ _ _ _ * _ = _
    rw [entropyWeight_inside (heta 0) (hpart 0) hp.1.le (hp.2.trans hQ0.ge)]
  obtain ⟨a1, b1⟩ := total_inside (hm 1) (hQ 1) (heta 1) (hpart 1) j1
  obtain ⟨a2, b2⟩ := total_inside (hm 2) (hQ 2) (heta 2) (hpart 2) j2
  have htot : (∑ i, ∫ p in Set.Ioc 0 (Q i), p ^ 2 * deriv (modeEntropy (r i).specie.eta) (f i p) * I i p) =
      ∫ z : ℝ × ℝ, (w 0 z.1 - w 1 z.2 - w 2 (z.1 - z.2)) * events r f P z.1 z.2 ∂(volume.prod volume) := by
    rw [Fin.sum_univ_three, ← b1, ← b2, hQ0, ← setIntegral_congr_fun measurableSet_Ioc e0]
    exact ht
  refine ⟨I, hI, p1, p2, ?_, ?_, ?_, ?_⟩
  · intro i hi p hp
    have hp0 : 0 < p := (hQ i).trans_lt hp
    by_contra hne
    fin_cases i
    · exact hi rfl
    · exact absurd (hreach1 p hp0 (p1 p hp0 hne)) (not_le.mpr hp)
    · exact absurd (hreach2 p hp0 (p2 p hp0 hne)) (not_le.mpr hp)
  · intro i
    fin_cases i
    · change IntegrableOn _ (Set.Ioc 0 (Q 0))
      rw [hQ0]
      exact j0.congr_fun e0 measurableSet_Ioc
    · exact a1
    · exact a2
  · rw [htot]
    exact integral_nonneg fun z => (hpt z).1
  · intro hz
    rw [htot] at hz
    have hae := (integral_eq_zero_iff_of_nonneg (fun z : ℝ × ℝ => (hpt z).1) hn).mp hz
    have hzero : ∀ q : Fin 3 → ℝ → ℝ, (∀ i, Measurable (q i)) → (∀ S, ∃ C, ∀ i E, |E| ≤ S → |q i E| ≤ C) →
        (∫ p in Set.Ioc 0 P, p ^ 2 * q 0 (energyOf (r 0).specie.m p) * I 0 p) +
        (∫ p in Set.Ioi 0, p ^ 2 * q 1 (energyOf (r 1).specie.m p) * I 1 p) +
        (∫ p in Set.Ioi 0, p ^ 2 * q 2 (energyOf (r 2).specie.m p) * I 2 p) = 0 := by
      intro q hqm hqb
      obtain ⟨-, -, -, -, ht'⟩ := hq q hqm hqb
      rw [ht']
      apply integral_eq_zero_of_ae
      filter_upwards [hae] with z h
      rw [(hpt z).2 h, mul_zero]; rfl
    have hone : ∀ i, ∀ g : ℝ → ℝ, Measurable g → (∀ E, |g E| ≤ 1) →
        (i = 0 → ∫ p in Set.Ioc 0 P, p ^ 2 * g (energyOf (r i).specie.m p) * I i p = 0) ∧
        (i ≠ 0 → ∫ p in Set.Ioi 0, p ^ 2 * g (energyOf (r i).specie.m p) * I i p = 0) := by
      intro i g hg hgb
      have h := hzero (fun j E => if j = i then g E else 0) (fun j => by
          by_cases h : j = i
          · simp only [h, if_true]; exact hg
          · simp only [h, if_false]; exact measurable_const)
        (fun S => ⟨1, fun j E _ => by
          by_cases h : j = i
          · simp only [h, if_true]; exact hgb E
          · simp [h]⟩)
      fin_cases i <;> simpa using h
    obtain ⟨k0, k1, k2, -, -⟩ := hq (fun _ _ => 1) (fun _ => measurable_const) (fun S => ⟨1, fun _ _ _ => by simp⟩)
    simp only [mul_one] at k0 k1 k2
    have hsub : ∀ i, Set.Ioc 0 (Q i) ⊆ Set.Ioi (0 : ℝ) := fun i p hp => hp.1
    intro i
    fin_cases i
    · change ∀ᵐ p ∂volume.restrict (Set.Ioc 0 (Q 0)), I 0 p = 0
      rw [hQ0]
      exact vanish_of_totals measurableSet_Ioc (fun p hp => hp.1) k0 (fun g hg hb => (hone 0 g hg hb).1 rfl)
    · exact ae_restrict_of_ae_restrict_of_subset (hsub 1)
        (vanish_of_totals measurableSet_Ioi (fun p hp => hp) k1 (fun g hg hb => (hone 1 g hg hb).2 (by decide)))
    · exact ae_restrict_of_ae_restrict_of_subset (hsub 2)
        (vanish_of_totals measurableSet_Ioi (fun p hp => hp) k2 (fun g hg hb => (hone 2 g hg hb).2 (by decide)))

/-! ## Stored and thermal spectra -/

theorem exists_pos_lower (l : List ℝ) (h : ∀ x ∈ l, 0 < x) : ∃ δ, 0 < δ ∧ ∀ x ∈ l, δ ≤ x := by
  induction l with
  | nil => exact ⟨1, one_pos, by simp⟩
  | cons a l ih =>
    obtain ⟨δ, hδ, hl⟩ := ih fun x hx => h x (List.mem_cons_of_mem _ hx)
    refine ⟨min a δ, lt_min (h a List.mem_cons_self) hδ, fun x hx => ?_⟩
    rcases List.mem_cons.mp hx with rfl | hx
    · exact min_le_left _ _
    · exact (min_le_right _ _).trans (hl x hx)

/-- A table with values between empty and full describes partly filled modes at all momenta, those beyond the end of
the grid included. -/
theorem partly_stored (s : CParticle) (g : List ℝ) (heq : s.inEq = false) (hg : s.grid = 0 :: g)
    (hs : s.grid.Pairwise (· < ·)) (hlen : s.dist.length = s.grid.length) (hT : 0 < s.T)
    (heta : s.eta = 1 ∨ s.eta = -1) (hd : ∀ d ∈ s.dist, 0 < d ∧ (s.eta = 1 → d < 1)) (f : ℝ → ℝ)
    (hf : ∀ p, 0 ≤ p → occAt s p = .ok (f p)) (Q : ℝ) : PartlyTo s.eta f Q := by
  have hne : s.grid ≠ [] := by rw [hg]; simp
  have hdne : s.dist ≠ [] := by
    intro h; rw [h] at hlen; exact hne (List.length_eq_zero_iff.mp hlen.symm)
  have hpos : ∀ x ∈ s.grid, 0 ≤ x := by
    intro x hx
    rw [hg] at hx hs
    rcases List.mem_cons.mp hx with rfl | hx
    · exact le_rfl
    · exact ((List.pairwise_cons.mp hs).1 x hx).le
  have hdk : ∀ k, (hk : k < s.dist.length) → 0 < s.dist[k] ∧ (s.eta = 1 → s.dist[k] < 1) :=
    fun k hk => hd _ (List.getElem_mem hk)
  obtain ⟨a, ha, hla⟩ := exists_pos_lower s.dist fun x hx => (hd x hx).1
  obtain ⟨b, hb, hlb⟩ : ∃ b, 0 < b ∧ ∀ x ∈ s.dist, (s.eta : ℝ) * x ≤ 1 - b := by
    rcases heta with h | h
    · obtain ⟨b, hb, hlb⟩ := exists_pos_lower (s.dist.map fun x => 1 - x) (by
        intro y hy
        obtain ⟨x, hx, rfl⟩ := List.mem_map.mp hy
        linarith [(hd x hx).2 h])
      refine ⟨b, hb, fun x hx => ?_⟩
      have := hlb _ (List.mem_map_of_mem hx)
      rw [h]; push_cast; linarith
    · refine ⟨1, one_pos, fun x hx => ?_⟩
      rw [h]; push_cast; linarith [(hd x hx).1]
  have hB : ∀ d ∈ s.dist, d ≤ s.dist.sum :=
    fun d hd' => List.single_le_sum (fun x hx => (hd x hx).1.le) d hd'
  have hlast := List.getLast_mem hdne
  set E0 := energy (s.grid.getLast hne) s.m
  set t := min 1 (Real.exp ((E0 - energy Q s.m) / s.T)) with ht
  have htp : 0 < t := lt_min one_pos (Real.exp_pos _)
  have hocc : ∀ p, occAt s p = distributionInterpolation s.grid s.dist p s.m s.eta s.T false := by
    intro p; unfold occAt; rw [heq]
  -- values between two numbers of the table times a factor
  have key : ∀ v x y c : ℝ, x ∈ s.dist → y ∈ s.dist → t ≤ c → x * c ≤ v → v ≤ y →
      min (a * t) b ≤ v ∧ v ≤ s.dist.sum ∧ s.eta * v ≤ 1 - min (a * t) b := by
    intro v x y c hx hy hc h1 h2
    have hv : a * t ≤ v := (mul_le_mul (hla x hx) hc htp.le (hd x hx).1.le).trans h1
    refine ⟨(min_le_left _ _).trans hv, h2.trans (hB y hy), ?_⟩
    have hby := hlb y hy
    have hmb := min_le_right (a * t) b
    have hma := min_le_left (a * t) b
    rcases heta with h | h
    · rw [h] at hby ⊢; push_cast at hby ⊢; linarith
    · have : 0 < a * t := mul_pos ha htp
      have hone : min (a * t) b ≤ v := hma.trans hv
      rw [h]; push_cast; linarith
  refine ⟨min (a * t) b, s.dist.sum, lt_min (mul_pos ha htp) hb, fun p hp hpQ => ?_⟩
  have hfp := hf p hp
  rw [hocc] at hfp
  rcases grid_cases s.grid p hne hs with h | h | ⟨i, hi, rfl⟩ | ⟨i, hi, h1, h2⟩
  · rw [C09_above s.grid s.dist p s.m s.T s.eta hne hlen h hdne, Except.ok.injEq] at hfp
    have hl := h _ (List.getLast_mem hne)
    have h0 := hpos _ (List.getLast_mem hne)
    refine key _ _ _ (Real.exp ((E0 - energy p s.m) / s.T)) hlast hlast ?_ hfp.le ?_
    · refine (min_le_right _ _).trans (Real.exp_le_exp.mpr (div_le_div_of_nonneg_right ?_ hT.le))
      linarith [energy_mono (m := s.m) hp hpQ]
    · rw [← hfp]
      have : Real.exp ((E0 - energy p s.m) / s.T) ≤ 1 := by
        rw [Real.exp_le_one_iff]
        exact div_nonpos_of_nonpos_of_nonneg (by linarith [energy_mono (m := s.m) h0 hl.le]) hT.le
      exact (mul_le_mul_of_nonneg_left this (hd _ hlast).1.le).trans (mul_one _).le
  · exact absurd (h 0 (by rw [hg]; simp)) (not_lt.mpr hp)
  · have hi2 : i < s.dist.length := by omega
    rw [C09_exact_on_grid s.grid s.dist s.m s.T s.eta hs hlen i hi, Except.ok.injEq] at hfp
    have hm := List.getElem_mem hi2
    exact key _ _ _ 1 hm hm (min_le_left _ _) (by rw [mul_one]; exact hfp.le) hfp.ge
  · have g0 : 0 ≤ s.grid[i] := hpos _ (List.getElem_mem _)
    obtain ⟨v, hv, c1, c2, -, -⟩ := C11_between_neighbours s.grid s.dist p s.m s.T s.eta hs hlen i hi g0 h1 h2 heta hdk
    rw [hv, Except.ok.injEq] at hfp
    have m1 : s.dist[i]'(by omega) ∈ s.dist := List.getElem_mem _
    have m2 : s.dist[i + 1]'(by omega) ∈ s.dist := List.getElem_mem _
    rw [← hfp]
    rcases min_choice (s.dist[i]'(by omega)) (s.dist[i + 1]'(by omega)) with q | q <;>
    rcases max_choice (s.dist[i]'(by omega)) (s.dist[i + 1]'(by omega)) with q' | q' <;>
    rw [q] at c1 <;> rw [q'] at c2
    · exact key _ _ _ 1 m1 m1 (min_le_left _ _) (by rw [mul_one]; exact c1) c2
    · exact key _ _ _ 1 m1 m2 (min_le_left _ _) (by rw [mul_one]; exact c1) c2
    · exact key _ _ _ 1 m2 m1 (min_le_left _ _) (by rw [mul_one]; exact c1) c2
    · exact key _ _ _ 1 m2 m2 (min_le_left _ _) (by rw [mul_one]; exact c1) c2

/-- Species in equilibrium have partly filled modes, massless bosons excepted. -/
theorem partly_thermal (s : CParticle) (heq : s.inEq = true) (hT : 0 < s.T) (hm : 0 ≤ s.m)
    (heta : s.eta = 1 ∨ s.eta = -1 ∧ 0 < s.m) (f : ℝ → ℝ) (hf : ∀ p, 0 ≤ p → occAt s p = .ok (f p)) (Q : ℝ) :
    PartlyTo s.eta f Q := by
  set L := Real.exp (s.m / s.T)
  set H := Real.exp (energy Q s.m / s.T)
  have hL1 : 1 ≤ L := Real.one_le_exp (by positivity)
  have hL : 0 < L + s.eta := by
    rcases heta with h | ⟨h, h'⟩
    · rw [h]; push_cast; linarith
    · rw [h]; push_cast
      have : 1 < L := Real.one_lt_exp_iff.mpr (by positivity)
      linarith
  have hH : 0 < H := Real.exp_pos _
  refine ⟨min (1 / (H + 1)) (1 / 2), 1 / (L + s.eta), by positivity, fun p hp hpQ => ?_⟩
  have hfp := hf p hp
  unfold occAt distributionInterpolation at hfp
  rw [if_pos heq, Except.ok.injEq] at hfp
  set x := Real.exp (energy p s.m / s.T)
  have h1 : L ≤ x := by
    refine Real.exp_le_exp.mpr (div_le_div_of_nonneg_right ?_ hT.le)
    unfold energy
    exact Real.le_sqrt_of_sq_le (by nlinarith)
  have h2 : x ≤ H := Real.exp_le_exp.mpr (div_le_div_of_nonneg_right (energy_mono hp hpQ) hT.le)
  have hx : 0 < x + s.eta := by linarith
  have hlow : 1 / (H + 1) ≤ f p := by
    rw [← hfp]
    apply one_div_le_one_div_of_le hx
    rcases heta with h | ⟨h, -⟩ <;> rw [h] <;> push_cast <;> linarith
  have hm1 := min_le_left (1 / (H + 1)) (1 / 2 : ℝ)
  have hm2 := min_le_right (1 / (H + 1)) (1 / 2 : ℝ)
  refine ⟨hm1.trans hlow, ?_, ?_⟩
  · rw [← hfp]; exact one_div_le_one_div_of_le hL (by linarith)
  · rcases heta with h | ⟨h, -⟩
    · have : f p ≤ 1 / 2 := by
        rw [← hfp, h]; push_cast
        exact one_div_le_one_div_of_le (by norm_num) (by linarith)
      rw [h]; push_cast; linarith
    · have : 0 < 1 / (H + 1) := by positivity
      rw [h]; push_cast; linarith

/-- A spectrum as the code knows it, either thermal or a table starting at zero momentum, with no mode empty or full. -/
def Filled (s : CParticle) : Prop :=
  (s.inEq = true ∧ 0 < s.T ∧ 0 ≤ s.m ∧ (s.eta = 1 ∨ s.eta = -1 ∧ 0 < s.m)) ∨
  (s.inEq = false ∧ (∃ g, s.grid = 0 :: g) ∧ s.grid.Pairwise (· < ·) ∧ s.dist.length = s.grid.length ∧ 0 < s.T ∧
    (s.eta = 1 ∨ s.eta = -1) ∧ ∀ d ∈ s.dist, 0 < d ∧ (s.eta = 1 → d < 1))

theorem Filled.eta {s : CParticle} (h : Filled s) : s.eta = 1 ∨ s.eta = -1 := by
  rcases h with ⟨-, -, -, h⟩ | ⟨-, -, -, -, -, h, -⟩
  · exact h.imp id And.left
  · exact h

theorem Filled.regular {s : CParticle} (h : Filled s) : Regular s := by
  rcases h with ⟨a, b, c, d⟩ | ⟨a, ⟨g, b⟩, c, d, e, k, l⟩
  · exact regular_thermal s a b c d
  · exact regular_stored s g a b c d e k fun x hx => ⟨(l x hx).1.le, (l x hx).2⟩

theorem Filled.partly {s : CParticle} (h : Filled s) (f : ℝ → ℝ) (hf : ∀ p, 0 ≤ p → occAt s p = .ok (f p)) (Q : ℝ) :
    PartlyTo s.eta f Q := by
  rcases h with ⟨a, b, c, d⟩ | ⟨a, ⟨g, b⟩, c, d, e, k, l⟩
  · exact partly_thermal s a b c d f hf Q
  · exact partly_stored s g a b c d e k l f hf Q

/-- **C105, three-body decays of stored and thermal spectra** with non-negative coefficients of the matrix elements. -/
theorem C105_three_body_spectra (r : Fin 4 → Reactant) (Ms : List CM) (P : ℝ) (s0 : (r 0).side = -1)
    (hs : ∀ i, i ≠ 0 → (r i).side = 1) (hm0 : 0 < (r 0).specie.m) (hm : ∀ i, 0 ≤ (r i).specie.m)
    (hopen : (r 1).specie.m + (r 2).specie.m + (r 3).specie.m ≤ (r 0).specie.m) (hP : 0 ≤ P)
    (hfill : ∀ i, Filled (r i).specie) (hMs : Ms ≠ []) (hK : ∀ M ∈ Ms, M.K = 0 ∧ 0 ≤ M.K1 ∧ 0 ≤ M.K2)
    (ho : ∀ M ∈ Ms, M.order.Bijective) (σ : Fin 4 → Equiv.Perm (Fin 4)) (h0 : ∀ i, σ i 0 = i)
    (h3 : ∀ i, i ≠ 0 → σ i 3 = 0) (max1 min2 max2 : Fin 4 → ℝ) (max3 : ℝ) (Q : Fin 4 → ℝ) (hQ0 : Q 0 = P)
    (hQ : ∀ i, 0 ≤ Q i) (hreach : ∀ i, i ≠ 0 → energyOf (r 0).specie.m P ≤
      energyOf (r i).specie.m (Q i) + (r (σ i 1)).specie.m + (r (σ i 2)).specie.m) :
    ∃ f A B : Fin 4 → ℝ → ℝ, (∀ i p, 0 ≤ p → occAt (r i).specie p = .ok (f i p)) ∧
      Samples4 r Ms σ P max1 min2 max2 max3 A B ∧
      (∀ i, i ≠ 0 → ∀ p, 0 < p → A i p + f i p * B i p ≠ 0 →
        energyOf (r i).specie.m p + (r (σ i 1)).specie.m + (r (σ i 2)).specie.m ≤ energyOf (r 0).specie.m P) ∧
      (∀ i, i ≠ 0 → ∀ p, Q i < p → A i p + f i p * B i p = 0) ∧
      (∀ i, IntegrableOn (fun p => p ^ 2 * deriv (modeEntropy (r i).specie.eta) (f i p) *
        (A i p + f i p * B i p)) (Set.Ioc 0 (Q i))) ∧
      0 ≤ ∑ i, ∫ p in Set.Ioc 0 (Q i), p ^ 2 * deriv (modeEntropy (r i).specie.eta) (f i p) *
        (A i p + f i p * B i p) ∧
      ((∑ i, ∫ p in Set.Ioc 0 (Q i), p ^ 2 * deriv (modeEntropy (r i).specie.eta) (f i p) *
        (A i p + f i p * B i p)) = 0 →
        ∀ i, ∀ᵐ p ∂volume.restrict (Set.Ioc 0 (Q i)), A i p + f i p * B i p = 0) := by
  choose f B hf h using fun i => (hfill i).regular
  have hB : ∀ i, 0 ≤ B i := fun i => (h i 0 le_rfl).2.1.trans (h i 0 le_rfl).2.2
  have d : Decay4 r Ms f :=
    { parent := s0, products := hs, massive := hm0, masses := hm, isOpen := hopen, eta := fun i => (hfill i).eta
      occ := fun i p hp => (h i p hp).1
      nonneg := fun i p hp => (h i p hp).2.1
      meas := hf
      bdd := ⟨∑ i, B i, fun i p hp => (h i p hp).2.2.trans
        (Finset.single_le_sum (fun j _ => hB j) (Finset.mem_univ i))⟩
      some := hMs, plain := fun M hM => (hK M hM).1, order := ho }
  obtain ⟨A, B, k⟩ := C105_three_body d hP σ h0 h3 max1 min2 max2 max3 Q hQ0 hQ
    (fun i => (hfill i).partly _ (d.occ i) _) hreach (fun p E hp hE _ =>
      kern_nonneg r Ms d.sides hm ho (fun M hM => (hK M hM).2) p E hp fun i => by
        rw [hE i]; exact Real.le_sqrt_of_sq_le (by nlinarith [sq_nonneg (r i).specie.m]))
  exact ⟨f, A, B, d.occ, k⟩

/-- **C105, two-body decays of stored and thermal spectra.** -/
theorem C105_two_body_spectra (r : Fin 3 → Reactant) (P : ℝ)
    (s0 : (r 0).side = -1) (s1 : (r 1).side = 1) (s2 : (r 2).side = 1)
    (hm0 : 0 < (r 0).specie.m) (hm1 : 0 ≤ (r 1).specie.m) (hm2 : 0 ≤ (r 2).specie.m)
    (hopen : (r 1).specie.m + (r 2).specie.m < (r 0).specie.m) (hP : 0 ≤ P)
    (hfill : ∀ i, Filled (r i).specie) (Q : Fin 3 → ℝ) (hQ0 : Q 0 = P) (hQ : ∀ i, 0 ≤ Q i)
    (hreach1 : ∀ p, 0 < p → Producible (r 0).specie.m (r 1).specie.m (r 2).specie.m P p → p ≤ Q 1)
    (hreach2 : ∀ p, 0 < p → Producible (r 0).specie.m (r 2).specie.m (r 1).specie.m P p → p ≤ Q 2) :
    ∃ f I : Fin 3 → ℝ → ℝ, (∀ i p, 0 ≤ p → occAt (r i).specie p = .ok (f i p)) ∧
      (∀ (ps : List ℝ), (∀ p ∈ ps, 0 ≤ p) → ∀ (min1 max1 max2 : ℝ) (sched : List (List ℕ)),
        ValidSchedule ps.length sched →
        integration3Exact r 0 ps min1 max1 max2 sched = .ok (ps.map (I 0)) ∧
        integration3Exact (viewA r) 0 ps min1 max1 P sched = .ok (ps.map (I 1)) ∧
        integration3Exact (viewB r) 0 ps min1 max1 P sched = .ok (ps.map (I 2))) ∧
      (∀ p, 0 < p → I 1 p ≠ 0 → Producible (r 0).specie.m (r 1).specie.m (r 2).specie.m P p) ∧
      (∀ p, 0 < p → I 2 p ≠ 0 → Producible (r 0).specie.m (r 2).specie.m (r 1).specie.m P p) ∧
      (∀ i, i ≠ 0 → ∀ p, Q i < p → I i p = 0) ∧
      (∀ i, IntegrableOn (fun p => p ^ 2 * deriv (modeEntropy (r i).specie.eta) (f i p) * I i p) (Set.Ioc 0 (Q i))) ∧
      0 ≤ ∑ i, ∫ p in Set.Ioc 0 (Q i), p ^ 2 * deriv (modeEntropy (r i).specie.eta) (f i p) * I i p ∧
      ((∑ i, ∫ p in Set.Ioc 0 (Q i), p ^ 2 * deriv (modeEntropy (r i).specie.eta) (f i p) * I i p) = 0 →
        ∀ i, ∀ᵐ p ∂volume.restrict (Set.Ioc 0 (Q i)), I i p = 0) := by
  choose f B hf h using fun i => (hfill i).regular
  obtain ⟨I, k⟩ := C105_two_body r f P s0 s1 s2 hm0 hm1 hm2 hopen hP (fun i => (hfill i).eta)
    (fun i p hp => (h i p hp).1) (fun i p hp => (h i p hp).2.1) hf Q hQ0 hQ
    (fun i => (hfill i).partly _ (fun p hp => (h i p hp).1) _) hreach1 hreach2
  exact ⟨f, I, fun i p hp => (h i p hp).1, k⟩

section Example
private noncomputable def entDemo4 : Fin 4 → Reactant := ![
  ⟨⟨1, 3, [0, 1, 3], [1/2, 1/4, 1/8], false, 1⟩, -1⟩,
  ⟨⟨1, 0, [0, 2], [1/3, 1/5], false, 1⟩, 1⟩,
  ⟨⟨1, 1, [], [], true, 1⟩, 1⟩,
  ⟨⟨1, 1, [], [], true, 1⟩, 1⟩]

private theorem entDemo4_filled (i : Fin 4) : Filled (entDemo4 i).specie := by
  fin_cases i
  · exact Or.inr ⟨rfl, ⟨[1, 3], rfl⟩, by norm_num [entDemo4], rfl, by norm_num [entDemo4], Or.inl rfl,
      by norm_num [entDemo4]⟩
  · exact Or.inr ⟨rfl, ⟨[2], rfl⟩, by norm_num [entDemo4], rfl, by norm_num [entDemo4], Or.inl rfl,
      by norm_num [entDemo4]⟩
  · exact Or.inl ⟨rfl, by norm_num [entDemo4], by norm_num [entDemo4], Or.inl rfl⟩
  · exact Or.inl ⟨rfl, by norm_num [entDemo4], by norm_num [entDemo4], Or.inl rfl⟩

/-- A decay `X → a + b + c` with stored spectra of `X` and `a` and thermal ones of `b` and `c`. -/
example : ∃ f A B : Fin 4 → ℝ → ℝ, Samples4 entDemo4 [⟨id, 1, 2, 0⟩]
      ![1, Equiv.swap 0 1 * Equiv.swap 1 3, Equiv.swap 0 2 * Equiv.swap 2 3, Equiv.swap 0 3] 3
      (fun _ => 3) (fun _ => 0) (fun _ => 3) 3 A B ∧
    0 ≤ ∑ i, ∫ p in Set.Ioc 0 ((![3, 5, 5, 5] : Fin 4 → ℝ) i),
      p ^ 2 * deriv (modeEntropy (entDemo4 i).specie.eta) (f i p) * (A i p + f i p * B i p) := by
  have hm : ∀ i, 0 ≤ (entDemo4 i).specie.m := fun i => by fin_cases i <;> norm_num [entDemo4]
  have hle : ∀ m : ℝ, energyOf 3 3 ≤ energyOf m 5 := fun m =>
    Real.sqrt_le_sqrt (by nlinarith [sq_nonneg m])
  obtain ⟨f, A, B, -, hS, -, -, -, h, -⟩ := C105_three_body_spectra entDemo4 [⟨id, 1, 2, 0⟩] 3 rfl
    (by intro i hi; fin_cases i <;> first | exact absurd rfl hi | rfl) (by norm_num [entDemo4]) hm
    (by change (0 : ℝ) + 1 + 1 ≤ 3; norm_num) (by norm_num) entDemo4_filled (by simp) (by simp)
    (fun M hM => by rw [List.mem_singleton.mp hM]; exact Function.bijective_id)
    ![1, Equiv.swap 0 1 * Equiv.swap 1 3, Equiv.swap 0 2 * Equiv.swap 2 3, Equiv.swap 0 3] (by decide) (by decide)
    (fun _ => 3) (fun _ => 0) (fun _ => 3) 3 ![3, 5, 5, 5] rfl (fun i => by fin_cases i <;> norm_num)
    (by
      intro i hi
      have a := hm ((![1, Equiv.swap 0 1 * Equiv.swap 1 3, Equiv.swap 0 2 * Equiv.swap 2 3, Equiv.swap 0 3] :
        Fin 4 → Equiv.Perm (Fin 4)) i 1)
      have b := hm ((![1, Equiv.swap 0 1 * Equiv.swap 1 3, Equiv.swap 0 2 * Equiv.swap 2 3, Equiv.swap 0 3] :
        Fin 4 → Equiv.Perm (Fin 4)) i 2)
      have c : energyOf (entDemo4 0).specie.m 3 ≤ energyOf (entDemo4 i).specie.m ((![3, 5, 5, 5] : Fin 4 → ℝ) i) := by
        fin_cases i
        · exact absurd rfl hi
        · exact hle _
        · exact hle _
        · exact hle _
      linarith)
  exact ⟨f, A, B, hS, h⟩

private noncomputable def entDemo3 : Fin 3 → Reactant := ![
  ⟨⟨1, 2, [0, 1, 3], [1/2, 1/4, 1/8], false, 1⟩, -1⟩,
  ⟨⟨1, 0, [0, 2], [1/3, 1/5], false, 1⟩, 1⟩,
  ⟨⟨1, 1, [], [], true, 1⟩, 1⟩]

private theorem entDemo3_filled (i : Fin 3) : Filled (entDemo3 i).specie := by
  fin_cases i
  · exact Or.inr ⟨rfl, ⟨[1, 3], rfl⟩, by norm_num [entDemo3], rfl, by norm_num [entDemo3], Or.inl rfl,
      by norm_num [entDemo3]⟩
  · exact Or.inr ⟨rfl, ⟨[2], rfl⟩, by norm_num [entDemo3], rfl, by norm_num [entDemo3], Or.inl rfl,
      by norm_num [entDemo3]⟩
  · exact Or.inl ⟨rfl, by norm_num [entDemo3], by change (0 : ℝ) ≤ 1; norm_num, Or.inl rfl⟩

/-- A decay `X → a + b`. -/
example : ∃ f I : Fin 3 → ℝ → ℝ, integration3Exact entDemo3 0 [0, 1, 3] 0 3 3 [[2, 0], [1]] = .ok [I 0 0, I 0 1, I 0 3] ∧
    0 ≤ ∑ i, ∫ p in Set.Ioc 0 ((![3, 4, 4] : Fin 3 → ℝ) i),
      p ^ 2 * deriv (modeEntropy (entDemo3 i).specie.eta) (f i p) * I i p := by
  have key : ∀ m m' p : ℝ, 0 < p → Producible 2 m m' 3 p → p ≤ 4 := by
    rintro m m' p hp ⟨pB, pC, hB, hC, hP, he, -⟩
    have h1 : p ≤ energyOf m p := Real.le_sqrt_of_sq_le (by nlinarith [sq_nonneg m])
    have h2 : 0 ≤ energyOf m' pB := Real.sqrt_nonneg _
    have h3 : energyOf 2 pC ≤ 4 := by
      unfold energyOf
      rw [Real.sqrt_le_left (by norm_num)]
      nlinarith
    linarith
  obtain ⟨f, I, -, hI, -, -, -, -, h, -⟩ := C105_two_body_spectra entDemo3 3 rfl rfl rfl (by norm_num [entDemo3])
    (by norm_num [entDemo3]) (by change (0 : ℝ) ≤ 1; norm_num) (by change (0 : ℝ) + 1 < 2; norm_num) (by norm_num)
    entDemo3_filled ![3, 4, 4] rfl (fun i => by fin_cases i <;> norm_num) (key _ _) (key _ _)
  exact ⟨f, I, (hI [0, 1, 3] (by norm_num) 0 3 3 [[2, 0], [1]] (by change [2, 0, 1].Perm [0, 1, 2]; decide)).1, h⟩
end Example

end PyBBN
