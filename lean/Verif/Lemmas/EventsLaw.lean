import Verif.Lemmas.Events
/-!
# Production of entropy in events
-/
namespace PyBBN
open MeasureTheory

/-! ## Integrals bounded from below -/

theorem Nice3.mono {H K : ℝ → ℝ → ℝ → ℝ} (h : Nice3 H) (k : Nice3 K) (hle : ∀ x y z, H x y z ≤ K x y z) :
    ∫ x, ∫ y, ∫ z, H x y z ≤ ∫ x, ∫ y, ∫ z, K x y z := by
  rw [h.integral, k.integral]
  exact integral_mono h.integrable k.integrable fun z => hle _ _ _

/-- A constant in a box. -/
noncomputable def boxed (R c x y z : ℝ) : ℝ := Set.indicator (Set.Icc (-R) R) (fun _ => Set.indicator (Set.Icc (-R) R)
  (fun _ => Set.indicator (Set.Icc (-R) R) (fun _ => c) z) y) x

theorem boxed_of {R c x y z : ℝ} (hx : |x| ≤ R) (hy : |y| ≤ R) (hz : |z| ≤ R) : boxed R c x y z = c := by
  unfold boxed
  have m : ∀ {v : ℝ}, |v| ≤ R → v ∈ Set.Icc (-R) R := fun h => abs_le.mp h
  rw [Set.indicator_of_mem (m hx), Set.indicator_of_mem (m hy), Set.indicator_of_mem (m hz)]

theorem boxed_out {R c x y z : ℝ} (h : ¬ (|x| ≤ R ∧ |y| ≤ R ∧ |z| ≤ R)) : boxed R c x y z = 0 := by
  unfold boxed
  simp only [Set.indicator, Set.mem_Icc, ← abs_le]
  split_ifs with a b c
  · exact absurd ⟨a, b, c⟩ h
  all_goals rfl

theorem boxed_nice (R c : ℝ) : Nice3 (boxed R c) := by
  have e : (fun z : ℝ × ℝ × ℝ => boxed R c z.1 z.2.1 z.2.2) =
      Set.indicator (Set.Icc (-R) R ×ˢ (Set.Icc (-R) R ×ˢ Set.Icc (-R) R)) fun _ => c := by
    funext z
    by_cases h : |z.1| ≤ R ∧ |z.2.1| ≤ R ∧ |z.2.2| ≤ R
    · rw [boxed_of h.1 h.2.1 h.2.2, Set.indicator_of_mem]
      exact ⟨abs_le.mp h.1, abs_le.mp h.2.1, abs_le.mp h.2.2⟩
    · rw [boxed_out h, Set.indicator_of_notMem]
      rintro ⟨a, b, c⟩
      exact h ⟨abs_le.mpr a, abs_le.mpr b, abs_le.mpr c⟩
  refine ⟨?_, ⟨|c|, fun x y z => ?_⟩, ⟨R, fun x y z hne => ?_⟩⟩
  · rw [e]
    exact measurable_const.indicator (measurableSet_Icc.prod (measurableSet_Icc.prod measurableSet_Icc))
  · by_cases h : |x| ≤ R ∧ |y| ≤ R ∧ |z| ≤ R
    · rw [boxed_of h.1 h.2.1 h.2.2]
    · rw [boxed_out h]; simp
  · by_contra h
    exact hne (boxed_out h)

theorem boxed_integral (R c : ℝ) (hR : 0 ≤ R) : ∫ x, ∫ y, ∫ z, boxed R c x y z = (2 * R) ^ 3 * c := by
  have one : ∀ c : ℝ, ∫ x, Set.indicator (Set.Icc (-R) R) (fun _ => c) x = 2 * R * c := by
    intro c
    rw [integral_indicator measurableSet_Icc, setIntegral_const, Measure.real, Real.volume_Icc,
      ENNReal.toReal_ofReal (by linarith), smul_eq_mul]
    ring
  have step : ∀ (G : ℝ → ℝ) (x : ℝ), ∫ y, Set.indicator (Set.Icc (-R) R) (fun _ => G y) x =
      Set.indicator (Set.Icc (-R) R) (fun _ => ∫ y, G y) x := by
    intro G x
    by_cases h : x ∈ Set.Icc (-R) R
    · simp only [Set.indicator_of_mem h]
    · simp only [Set.indicator_of_notMem h, integral_zero]
  unfold boxed
  simp only [step, one]
  ring

/-- An integral over a box of a function bounded from below. -/
theorem Nice3.lower {H : ℝ → ℝ → ℝ → ℝ} (h : Nice3 H) (R c : ℝ) (hR : 0 ≤ R)
    (hin : ∀ x y z, |x| ≤ R → |y| ≤ R → |z| ≤ R → -c ≤ H x y z)
    (hout : ∀ x y z, ¬ (|x| ≤ R ∧ |y| ≤ R ∧ |z| ≤ R) → H x y z = 0) : -((2 * R) ^ 3 * c) ≤ ∫ x, ∫ y, ∫ z, H x y z := by
  rw [← mul_neg, ← boxed_integral R (-c) hR]
  refine (boxed_nice R (-c)).mono h fun x y z => ?_
  by_cases hb : |x| ≤ R ∧ |y| ≤ R ∧ |z| ≤ R
  · rw [boxed_of hb.1 hb.2.1 hb.2.2]
    exact hin x y z hb.1 hb.2.1 hb.2.2
  · rw [boxed_out hb, hout x y z hb]

/-! ## Logarithms with a floor -/

theorem pair_floor {a a' b b' M N δ δ' : ℝ} (ha : 0 ≤ a) (haa : a ≤ a') (haM : a' ≤ M) (h1 : a' - a ≤ δ) (hb : 0 ≤ b)
    (hbb : b ≤ b') (hbN : b' ≤ N) (h2 : b' - b ≤ δ') : a * b ≤ a' * b' ∧ a' * b' - a * b ≤ δ * N + M * δ' := by
  constructor
  · exact mul_le_mul haa hbb hb (ha.trans haa)
  · have e : a' * b' - a * b = (a' - a) * b' + a * (b' - b) := by ring
    rw [e]
    refine add_le_add (mul_le_mul h1 hbN (hb.trans hbb) ?_) (mul_le_mul (haa.trans haM) h2 (by linarith) ?_)
    · linarith
    · linarith

theorem prod_floor (u : Fin 4 → ℝ) (M ε : ℝ) (hu : ∀ i, 0 ≤ u i) (huM : ∀ i, u i ≤ M) (hM : 1 ≤ M) (hε : 0 < ε) (hε1 : ε ≤ 1) :
    |∏ i, max (u i) ε - ∏ i, u i| ≤ 4 * M ^ 3 * ε := by
  have d : ∀ i, max (u i) ε - u i ≤ ε := fun i => by
    rcases max_cases (u i) ε with ⟨h, -⟩ | ⟨h, -⟩ <;> rw [h] <;> linarith [hu i]
  have m : ∀ i, max (u i) ε ≤ M := fun i => max_le (huM i) (hε1.trans hM)
  have two : ∀ i j, u i * u j ≤ max (u i) ε * max (u j) ε ∧ max (u i) ε * max (u j) ε - u i * u j ≤ ε * M + M * ε := fun i j =>
    pair_floor (hu i) (le_max_left _ _) (m i) (d i) (hu j) (le_max_left _ _) (m j) (d j)
  have mm : ∀ i j, max (u i) ε * max (u j) ε ≤ M * M := fun i j =>
    mul_le_mul (m i) (m j) ((hu j).trans (le_max_left _ _)) (by linarith)
  obtain ⟨a, b⟩ := pair_floor (mul_nonneg (hu 0) (hu 1)) (two 0 1).1 (mm 0 1) (two 0 1).2 (mul_nonneg (hu 2) (hu 3)) (two 2 3).1
    (mm 2 3) (two 2 3).2
  rw [Fin.prod_univ_four, Fin.prod_univ_four]
  rw [abs_of_nonneg (by linarith)]
  nlinarith [b]

theorem log_floor (u : Fin 4 → ℝ) (M ε : ℝ) (huM : ∀ i, u i ≤ M) (hM : 1 ≤ M) (hε : 0 < ε) (hε1 : ε ≤ 1) :
    |Real.log (∏ i, max (u i) ε)| ≤ 4 * (Real.log M + |Real.log ε|) := by
  have hp : ∀ i, 0 < max (u i) ε := fun i => lt_max_of_lt_right hε
  rw [Real.log_prod fun i _ => (hp i).ne']
  refine (Finset.abs_sum_le_sum_abs _ _).trans ?_
  have each : ∀ i ∈ (Finset.univ : Finset (Fin 4)), |Real.log (max (u i) ε)| ≤ Real.log M + |Real.log ε| := by
    intro i _
    have l1 : Real.log ε ≤ Real.log (max (u i) ε) := Real.log_le_log hε (le_max_right _ _)
    have l2 : Real.log (max (u i) ε) ≤ Real.log M := Real.log_le_log (hp i) (max_le (huM i) (hε1.trans hM))
    have l3 : 0 ≤ Real.log M := Real.log_nonneg hM
    rw [abs_le]
    constructor
    · linarith [neg_abs_le (Real.log ε)]
    · linarith [abs_nonneg (Real.log ε)]
  refine (Finset.sum_le_sum each).trans (le_of_eq ?_)
  simp [mul_add]

/-- Production of entropy in an event, with a floor under the occupation numbers. -/
theorem flux_floor (u v : Fin 4 → ℝ) (M ε : ℝ) (hu : ∀ i, 0 ≤ u i ∧ u i ≤ M) (hv : ∀ i, 0 ≤ v i ∧ v i ≤ M) (hM : 1 ≤ M) (hε : 0 < ε)
    (hε1 : ε ≤ 1) :
    -(64 * M ^ 3 * (1 + Real.log M) * (ε * (1 + |Real.log ε|))) ≤
      (∏ i, v i - ∏ i, u i) * (Real.log (∏ i, max (v i) ε) - Real.log (∏ i, max (u i) ε)) := by
  have hU := prod_floor u M ε (fun i => (hu i).1) (fun i => (hu i).2) hM hε hε1
  have hV := prod_floor v M ε (fun i => (hv i).1) (fun i => (hv i).2) hM hε hε1
  have lU := log_floor u M ε (fun i => (hu i).2) hM hε hε1
  have lV := log_floor v M ε (fun i => (hv i).2) hM hε hε1
  have pU : 0 < ∏ i, max (u i) ε := Finset.prod_pos fun i _ => lt_max_of_lt_right hε
  have pV : 0 < ∏ i, max (v i) ε := Finset.prod_pos fun i _ => lt_max_of_lt_right hε
  set a := ∏ i, u i
  set b := ∏ i, v i
  set a' := ∏ i, max (u i) ε
  set b' := ∏ i, max (v i) ε
  have mono : 0 ≤ (b' - a') * (Real.log b' - Real.log a') := by
    rcases le_total a' b' with h | h
    · exact mul_nonneg (by linarith) (by linarith [Real.log_le_log pU h])
    · exact mul_nonneg_of_nonpos_of_nonpos (by linarith) (by linarith [Real.log_le_log pV h])
  have l3 : 0 ≤ Real.log M := Real.log_nonneg hM
  have hL : |Real.log b' - Real.log a'| ≤ 8 * (Real.log M + |Real.log ε|) := by
    refine (abs_sub _ _).trans ?_
    linarith
  have hD : |(b - b') - (a - a')| ≤ 8 * M ^ 3 * ε := by
    refine (abs_sub _ _).trans ?_
    rw [abs_sub_comm b, abs_sub_comm a]
    linarith
  have hprod : |((b - b') - (a - a')) * (Real.log b' - Real.log a')| ≤ 8 * M ^ 3 * ε * (8 * (Real.log M + |Real.log ε|)) := by
    rw [abs_mul]
    exact mul_le_mul hD hL (abs_nonneg _) (by positivity)
  have e : (b - a) * (Real.log b' - Real.log a') = (b' - a') * (Real.log b' - Real.log a') +
      ((b - b') - (a - a')) * (Real.log b' - Real.log a') := by ring
  rw [e]
  have h1 := neg_abs_le (((b - b') - (a - a')) * (Real.log b' - Real.log a'))
  have h2 : 8 * M ^ 3 * ε * (8 * (Real.log M + |Real.log ε|)) ≤ 64 * M ^ 3 * (1 + Real.log M) * (ε * (1 + |Real.log ε|)) := by
    have h3 : Real.log M + |Real.log ε| ≤ (1 + Real.log M) * (1 + |Real.log ε|) := by
      nlinarith [abs_nonneg (Real.log ε)]
    have h4 : 0 ≤ 64 * M ^ 3 * ε := by positivity
    nlinarith [mul_le_mul_of_nonneg_left h3 h4]
  linarith

/-! ## Families -/

section
variable {S : Type*} {sp : S → CParticle} {f : S → ℝ → ℝ} {P : S → ℝ}

/-- Derivative of the entropy of a mode with respect to its occupation, with a floor `ε` under the occupation numbers. -/
noncomputable def floorWeight (sp : S → CParticle) (f : S → ℝ → ℝ) (ε : ℝ) (s : S) (E : ℝ) : ℝ :=
  Real.log (max (1 - (sp s).eta * f s (momOf (sp s).m E)) ε) - Real.log (max (f s (momOf (sp s).m E)) ε)

/-- The kernel of no event is negative. -/
def AmpNonneg (sp : S → CParticle) {ι : Type*} [Fintype ι] (τ : ι → Fin 4 → S) (Ms : ι → List CM) : Prop :=
  ∀ (θ : Fin 4 → S) (p E : Fin 4 → ℝ), (∀ i, 0 ≤ p i ∧ 0 ≤ E i ∧ E i ^ 2 = p i ^ 2 + (sp (θ i)).m ^ 2) →
    0 ≤ evTotal sp τ Ms θ 0 p E

theorem evTotal_bound {ι : Type*} [Fintype ι] (τ : ι → Fin 4 → S) (Ms : ι → List CM) (θ : Fin 4 → S) (R : ℝ) :
    ∃ C, ∀ p E : Fin 4 → ℝ, (∀ i, |p i| ≤ R) → (∀ i, |E i| ≤ R) → |evTotal sp τ Ms θ 0 p E| ≤ C := by
  classical
  have h : ∀ (n : ι) (g : Equiv.Perm (Fin 4)), ∃ C, ∀ p E : Fin 4 → ℝ, (∀ i, |p i| ≤ R) → (∀ i, |E i| ≤ R) →
      |kern (evR sp θ) (viewMs (Ms n) g) p E| ≤ C := fun n g => kern_bound _ _ R
  choose C hC using h
  refine ⟨∑ n, ∑ g, |C n g|, fun p E hp hE => ?_⟩
  unfold evTotal
  refine (Finset.abs_sum_le_sum_abs _ _).trans (Finset.sum_le_sum fun n _ => ?_)
  refine (Finset.abs_sum_le_sum_abs _ _).trans (Finset.sum_le_sum fun g _ => ?_)
  split_ifs
  · exact (hC n g p E hp hE).trans (le_abs_self _)
  · simp

theorem evSet_mem {ι : Type*} [Fintype ι] {τ : ι → Fin 4 → S} {θ : Fin 4 → S} (h : θ ∈ evSet τ) (i : Fin 4) :
    ∃ n j, θ i = τ n j := by
  classical
  obtain ⟨⟨n, g⟩, -, rfl⟩ := Finset.mem_image.mp h
  exact ⟨n, g i, rfl⟩

/-- One event. -/
theorem event_law {ι : Type*} [Fintype ι] (τ : ι → Fin 4 → S) (Ms : ι → List CM) (hb : AmpBalanced sp τ Ms) (hn : AmpNonneg sp τ Ms)
    (M : ℝ) (hM : 1 ≤ M) (hm : ∀ n j, 0 ≤ (sp (τ n j)).m)
    (hf : ∀ n j q, 0 ≤ q → 0 ≤ f (τ n j) q ∧ f (τ n j) q ≤ M ∧ 0 ≤ 1 - (sp (τ n j)).eta * f (τ n j) q ∧
      1 - (sp (τ n j)).eta * f (τ n j) q ≤ M) (ε : ℝ) (hε : 0 < ε) (hε1 : ε ≤ 1) (θ : Fin 4 → S) (hθ : θ ∈ evSet τ) (e : Fin 4 → ℝ) :
    -(64 * M ^ 3 * (1 + Real.log M) * (ε * (1 + |Real.log ε|))) *
        |evTotal sp τ Ms θ 0 (fun i => momOf (sp (θ i)).m (e i)) e| ≤
      ∑ i : Fin 4, -(evSide i : ℝ) * floorWeight sp f ε (θ i) (e i) * evNet sp f P θ e *
        evTotal sp τ Ms θ i (fun i => momOf (sp (θ i)).m (e i)) e := by
  have l3 : 0 ≤ Real.log M := Real.log_nonneg hM
  set c := 64 * M ^ 3 * (1 + Real.log M) * (ε * (1 + |Real.log ε|)) with hc
  have hc0 : 0 ≤ c := by positivity
  obtain ⟨B, hB⟩ := hb θ (fun i => momOf (sp (θ i)).m (e i)) e
  have hB' : ∀ i, evTotal sp τ Ms θ i (fun i => momOf (sp (θ i)).m (e i)) e = B := hB
  simp only [hB']
  by_cases hin : (∀ i, (sp (θ i)).m ≤ e i) ∧ ∀ i, e i ≤ energyOf (sp (θ i)).m (P (θ i))
  · have hnet : evNet sp f P θ e = netFlux4 (evR sp θ) (fun i => f (θ i) (momOf (sp (θ i)).m (e i))) := by
      unfold evNet; rw [if_pos hin]
    have hmθ : ∀ i, 0 ≤ (sp (θ i)).m := by
      intro i
      obtain ⟨n, j, h⟩ := evSet_mem hθ i
      rw [h]; exact hm n j
    have hfθ : ∀ i, 0 ≤ f (θ i) (momOf (sp (θ i)).m (e i)) ∧ f (θ i) (momOf (sp (θ i)).m (e i)) ≤ M ∧
        0 ≤ 1 - (sp (θ i)).eta * f (θ i) (momOf (sp (θ i)).m (e i)) ∧ 1 - (sp (θ i)).eta * f (θ i) (momOf (sp (θ i)).m (e i)) ≤ M := by
      intro i
      obtain ⟨n, j, h⟩ := evSet_mem hθ i
      rw [h]; exact hf n j _ (Real.sqrt_nonneg _)
    have hBn : 0 ≤ B := by
      rw [← hB' 0]
      refine hn θ _ e fun i => ⟨Real.sqrt_nonneg _, (hmθ i).trans (hin.1 i), ?_⟩
      unfold momOf
      rw [Real.sq_sqrt]
      · ring
      · nlinarith [hmθ i, hin.1 i]
    set u : Fin 4 → ℝ := fun i => if evSide i = -1 then f (θ i) (momOf (sp (θ i)).m (e i)) else
      1 - (sp (θ i)).eta * f (θ i) (momOf (sp (θ i)).m (e i)) with hu
    set v : Fin 4 → ℝ := fun i => if evSide i = 1 then f (θ i) (momOf (sp (θ i)).m (e i)) else
      1 - (sp (θ i)).eta * f (θ i) (momOf (sp (θ i)).m (e i)) with hv
    have bu : ∀ i, 0 ≤ u i ∧ u i ≤ M := by
      intro i
      obtain ⟨a, b, c, d⟩ := hfθ i
      simp only [hu]
      split_ifs
      exacts [⟨a, b⟩, ⟨c, d⟩]
    have bv : ∀ i, 0 ≤ v i ∧ v i ≤ M := by
      intro i
      obtain ⟨a, b, c, d⟩ := hfθ i
      simp only [hv]
      split_ifs
      exacts [⟨a, b⟩, ⟨c, d⟩]
    have law := flux_floor u v M ε bu bv hM hε hε1
    have enet : netFlux4 (evR sp θ) (fun i => f (θ i) (momOf (sp (θ i)).m (e i))) = ∏ i, v i - ∏ i, u i := rfl
    have hp : ∀ w : Fin 4 → ℝ, ∀ i, max (w i) ε ≠ 0 := fun w i => (lt_max_of_lt_right hε).ne'
    have esum : ∑ i, -(evSide i : ℝ) * floorWeight sp f ε (θ i) (e i) =
        Real.log (∏ i, max (v i) ε) - Real.log (∏ i, max (u i) ε) := by
      rw [Real.log_prod fun i _ => hp v i, Real.log_prod fun i _ => hp u i, ← Finset.sum_sub_distrib]
      apply Finset.sum_congr rfl
      intro i _
      simp only [hu, hv]
      unfold floorWeight
      have : evSide i = -1 ∨ evSide i = 1 := by fin_cases i <;> decide
      rcases this with h | h <;> rw [h] <;> norm_num
    rw [← Finset.sum_mul, ← Finset.sum_mul, esum, hnet, enet, abs_of_nonneg hBn]
    refine mul_le_mul_of_nonneg_right ?_ hBn
    linarith [mul_comm (∏ i, v i - ∏ i, u i) (Real.log (∏ i, max (v i) ε) - Real.log (∏ i, max (u i) ε))]
  · have hnet : evNet sp f P θ e = 0 := by unfold evNet; rw [if_neg hin]
    rw [hnet]
    simp only [mul_zero, zero_mul, Finset.sum_const_zero]
    nlinarith [abs_nonneg B]

theorem floorWeight_nice {f : S → ℝ → ℝ} (hfm : ∀ s, Measurable (f s)) (hfb : ∀ s, ∃ B, ∀ q, 0 ≤ q → |f s q| ≤ B) (ε : ℝ) (hε : 0 < ε) :
    (∀ s, Measurable (floorWeight sp f ε s)) ∧ ∀ s R, ∃ D, ∀ E, |E| ≤ R → |floorWeight sp f ε s E| ≤ D := by
  have hmom : ∀ m : ℝ, Measurable (momOf m) := by
    intro m
    unfold momOf
    fun_prop
  have hqm : ∀ s, Measurable (floorWeight sp f ε s) := by
    intro s
    have h1 : Measurable fun E => f s (momOf (sp s).m E) := (hfm s).comp (hmom _)
    unfold floorWeight
    exact (Real.measurable_log.comp ((measurable_const.sub (measurable_const.mul h1)).max measurable_const)).sub
      (Real.measurable_log.comp (h1.max measurable_const))
  have hlog : ∀ x T : ℝ, x ≤ T → |Real.log (max x ε)| ≤ |Real.log ε| + |Real.log (max T ε)| := by
    intro x T h
    have h1 : Real.log ε ≤ Real.log (max x ε) := Real.log_le_log hε (le_max_right _ _)
    have h2 : Real.log (max x ε) ≤ Real.log (max T ε) := Real.log_le_log (lt_max_of_lt_right hε) (max_le_max h le_rfl)
    rw [abs_le]
    constructor
    · linarith [neg_abs_le (Real.log ε), abs_nonneg (Real.log (max T ε))]
    · linarith [le_abs_self (Real.log (max T ε)), abs_nonneg (Real.log ε)]
  have hqb : ∀ s R, ∃ D, ∀ E, |E| ≤ R → |floorWeight sp f ε s E| ≤ D := by
    intro s _
    obtain ⟨B, hB⟩ := hfb s
    refine ⟨(|Real.log ε| + |Real.log (max (1 + |((sp s).eta : ℝ)| * B) ε)|) + (|Real.log ε| + |Real.log (max B ε)|), fun E _ => ?_⟩
    have hB' := hB (momOf (sp s).m E) (Real.sqrt_nonneg _)
    unfold floorWeight
    refine (abs_sub _ _).trans (add_le_add (hlog _ _ ?_) (hlog _ _ ((le_abs_self _).trans hB')))
    have h1 := neg_abs_le ((sp s).eta * f s (momOf (sp s).m E))
    rw [abs_mul] at h1
    have h2 := mul_le_mul_of_nonneg_left hB' (abs_nonneg ((sp s).eta : ℝ))
    linarith
  exact ⟨hqm, hqb⟩

/-- Production of entropy by a family of scatterings. -/
theorem events_law {ι : Type*} [Fintype ι] (τ : ι → Fin 4 → S) (Ms : ι → List CM) (hb : AmpBalanced sp τ Ms) (hn : AmpNonneg sp τ Ms)
    (d : ∀ n, Scatter4 (evR sp (τ n)) (Ms n) (fun i => f (τ n i)))
    (hc : ∀ n, Confined (evR sp (τ n)) (fun i => f (τ n i)) (fun i => P (τ n i))) (hfm : ∀ s, Measurable (f s))
    (hfb : ∀ s, ∃ B, ∀ q, 0 ≤ q → |f s q| ≤ B) (M : ℝ) (hM : 1 ≤ M)
    (hf : ∀ n j q, 0 ≤ q → 0 ≤ f (τ n j) q ∧ f (τ n j) q ≤ M ∧ 0 ≤ 1 - (sp (τ n j)).eta * f (τ n j) q ∧
      1 - (sp (τ n j)).eta * f (τ n j) q ≤ M) :
    ∃ C, 0 ≤ C ∧ ∀ ε, 0 < ε → ε ≤ 1 →
      (∀ s, Measurable (floorWeight sp f ε s)) ∧ (∀ s R, ∃ D, ∀ E, |E| ≤ R → |floorWeight sp f ε s E| ≤ D) ∧
      -(C * (ε * (1 + |Real.log ε|))) ≤ ∑ n, ∫ a, floorWeight sp f ε (τ n 0) a * ∫ b, ∫ c,
        rateBoxed (evR sp (τ n)) (Ms n) (fun i => f (τ n i)) (fun i => P (τ n i)) (-1) (place2 1 a b c) := by
  classical
  have l3 : 0 ≤ Real.log M := Real.log_nonneg hM
  have hV : (0 : ℝ) < evViews := by exact_mod_cast evViews_pos
  set R : ℝ := ∑ θ ∈ evSet τ, ∑ i, |energyOf (sp (θ i)).m (P (θ i))| with hR
  have hR0 : 0 ≤ R := Finset.sum_nonneg fun θ _ => Finset.sum_nonneg fun i _ => abs_nonneg _
  have hm : ∀ n j, 0 ≤ (sp (τ n j)).m := fun n j => (d n).masses j
  have hbox : ∀ θ ∈ evSet τ, ∀ e : Fin 4 → ℝ, evNet sp f P θ e ≠ 0 → ∀ i, 0 ≤ e i ∧ e i ≤ R := by
    intro θ hθ e hne i
    unfold evNet at hne
    split_ifs at hne with h
    · obtain ⟨n, j, hj⟩ := evSet_mem hθ i
      refine ⟨le_trans (by rw [hj]; exact hm n j) (h.1 i), (h.2 i).trans ((le_abs_self _).trans ?_)⟩
      refine le_trans ?_ (Finset.single_le_sum (f := fun θ : Fin 4 → S => ∑ i, |energyOf (sp (θ i)).m (P (θ i))|)
        (fun θ _ => Finset.sum_nonneg fun i _ => abs_nonneg _) hθ)
      exact Finset.single_le_sum (f := fun i => |energyOf (sp (θ i)).m (P (θ i))|) (fun i _ => abs_nonneg _) (Finset.mem_univ i)
    · exact absurd rfl hne
  choose D hD using fun θ : Fin 4 → S => evTotal_bound (sp := sp) τ Ms θ R
  set K : ℝ := ∑ θ ∈ evSet τ, |D θ| with hK
  have hK0 : 0 ≤ K := Finset.sum_nonneg fun θ _ => abs_nonneg _
  set c0 := 64 * M ^ 3 * (1 + Real.log M) with hc0
  have hc00 : 0 ≤ c0 := by positivity
  refine ⟨(2 * R) ^ 3 * (c0 * K) / evViews, by positivity, fun ε hε hε1 => ?_⟩
  obtain ⟨hqm, hqb⟩ := floorWeight_nice (sp := sp) hfm hfb ε hε
  refine ⟨hqm, hqb, ?_⟩
  obtain ⟨hN, hI⟩ := events_integral (P := P) τ Ms d (floorWeight sp f ε) hqm hqb
  have hsum : ∀ x y z, evSum sp f P τ Ms (floorWeight sp f ε) (conserve2 x y z) = _ := fun x y z =>
    events_sum τ Ms hc (floorWeight sp f ε) (conserve2 x y z) (by change x + y = z + (x + y - z); ring)
  set c := c0 * (ε * (1 + |Real.log ε|)) with hcdef
  have hcn : 0 ≤ c := by positivity
  have low := hN.lower R (c * K) hR0
    (by
      intro x y z hx hy hz
      rw [hsum, hK, ← neg_mul, Finset.mul_sum]
      refine Finset.sum_le_sum fun θ hθ => ?_
      by_cases hne : evNet sp f P θ (conserve2 x y z) = 0
      · simp only [hne, mul_zero, zero_mul, Finset.sum_const_zero]
        nlinarith [abs_nonneg (D θ)]
      · have hin := hbox θ hθ _ hne
        refine le_trans ?_ (event_law τ Ms hb hn M hM hm hf ε hε hε1 θ hθ _)
        rw [neg_mul, neg_mul, neg_le_neg_iff]
        refine mul_le_mul_of_nonneg_left ((hD θ _ _ (fun i => ?_) (fun i => ?_)).trans (le_abs_self _)) hcn
        · exact (momOf_le_self _ _ (hin i).1).trans (hin i).2
        · rw [abs_of_nonneg (hin i).1]; exact (hin i).2)
    (by
      intro x y z hout
      rw [hsum]
      refine Finset.sum_eq_zero fun θ hθ => ?_
      have hne : evNet sp f P θ (conserve2 x y z) = 0 := by
        by_contra hne
        have hin := hbox θ hθ _ hne
        refine hout ⟨?_, ?_, ?_⟩
        · exact (abs_of_nonneg (hin 0).1).le.trans (hin 0).2
        · exact (abs_of_nonneg (hin 1).1).le.trans (hin 1).2
        · exact (abs_of_nonneg (hin 2).1).le.trans (hin 2).2
      simp only [hne, mul_zero, zero_mul, Finset.sum_const_zero])
  rw [← hI] at low
  rw [neg_le_iff_add_nonneg, ← mul_nonneg_iff_of_pos_left hV]
  have e : (evViews : ℝ) * ((2 * R) ^ 3 * (c0 * K) / evViews * (ε * (1 + |Real.log ε|))) = (2 * R) ^ 3 * (c * K) := by
    rw [hcdef]
    field_simp
  rw [mul_add, e]
  linarith

end

end PyBBN
