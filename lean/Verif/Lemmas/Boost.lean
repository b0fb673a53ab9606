import Verif.Lemmas.Dalitz
import Verif.Props.FermiRate
/-!
# Energies of three decay products of a moving particle

Pure analysis: the double integral over the energies in the frame where the particle moves is that of the rest frame, times the
momentum of the particle.
-/
namespace PyBBN

open MeasureTheory Set

/-- The average over the momentum transfer with the second pair as an indicator. -/
theorem pair_split {q x y z : ℝ} (hq : 0 < q) (hx : 0 < x) (hy : 0 < y) (hz : 0 < z) {f : ℝ → ℝ} (hf : Continuous f) :
    pairAverage q x y z f = 1 / 2 * ∫ d in |q - x|..(q + x), Db1 d y z * f d := by
  have hAB : |q - x| ≤ q + x := by rw [abs_le]; constructor <;> linarith
  have hL : |y - z| ≤ y + z := by rw [abs_le]; constructor <;> linarith
  have zero : ∀ d, |q - x| < d → d < |y - z| ∨ y + z < d → Db1 d y z * f d = 0 := by
    intro d hd h
    have d0 : 0 < d := lt_of_le_of_lt (abs_nonneg _) hd
    rw [Db1_out d0 hy hz, zero_mul]
    rcases h with h | h
    · rcases lt_abs.mp h with h | h
      · right; left; linarith
      · left; linarith
    · right; right; linarith
  have one : ∀ d, |y - z| < d → d < y + z → Db1 d y z * f d = f d := by
    intro d h1 h2
    obtain ⟨a, b⟩ := abs_lt.mp h1
    rw [Db1_in (by linarith) (by linarith) (by linarith), one_mul]
  unfold pairAverage
  split_ifs with h
  · congr 1
    symm
    refine integral_middle (le_max_left _ _) h (min_le_left _ _) ?_ ?_ ?_ (hf.intervalIntegrable _ _)
    · intro d hd
      refine zero d hd.1 (Or.inl ?_)
      rcases lt_max_iff.mp hd.2 with h' | h'
      · exact absurd h' (not_lt.mpr hd.1.le)
      · exact h'
    · intro d hd
      exact one d ((le_max_right _ _).trans_lt hd.1) (hd.2.trans_le (min_le_right _ _))
    · intro d hd
      refine zero d ((le_max_left _ _).trans_lt (h.trans_lt hd.1)) (Or.inr ?_)
      rcases min_lt_iff.mp hd.1 with h' | h'
      · exact absurd h' (not_lt.mpr hd.2.le)
      · exact h'
  · push Not at h
    rw [intervalIntegral.integral_congr_Ioo_of_le (g := fun _ => 0) hAB]
    · simp
    intro d hd
    refine zero d hd.1 ?_
    rcases min_lt_iff.mp h with h1 | h1
    · rcases lt_max_iff.mp h1 with h2 | h2
      · exact absurd h2 (not_lt.mpr hAB)
      · left; exact hd.2.trans h2
    · rcases lt_max_iff.mp h1 with h2 | h2
      · right; exact h2.trans hd.1
      · exact absurd h2 (not_lt.mpr hL)

/-- Phase space of two products of masses `b`, `c` and invariant mass squared `s`. -/
noncomputable def pairSpace (b c s : ℝ) : ℝ := if (b + c) ^ 2 < s then √(kallen s (b ^ 2) (c ^ 2)) / s else 0

theorem pairSpace_nonneg (b c s : ℝ) : 0 ≤ pairSpace b c s := by
  unfold pairSpace
  split_ifs with h
  · have : 0 < s := lt_of_le_of_lt (sq_nonneg _) h
    positivity
  · exact le_rfl

theorem pairSpace_le {b c : ℝ} (hb : 0 ≤ b) (hc : 0 ≤ c) (s : ℝ) : pairSpace b c s ≤ 1 := by
  unfold pairSpace
  split_ifs with h
  · have hs : 0 < s := lt_of_le_of_lt (sq_nonneg _) h
    rw [div_le_one hs]
    apply Real.sqrt_le_iff.mpr ⟨hs.le, ?_⟩
    rw [kallen_factor]
    have : (b - c) ^ 2 ≤ (b + c) ^ 2 := by nlinarith [mul_nonneg hb hc]
    nlinarith [sq_nonneg (b + c), sq_nonneg (b - c)]
  · norm_num

theorem pairSpace_measurable (b c : ℝ) : Measurable (pairSpace b c) := by
  unfold pairSpace kallen
  refine Measurable.ite measurableSet_Ioi ?_ measurable_const
  fun_prop

/-- Energies of the second product compatible with a momentum transfer `d`. -/
theorem pair_length {W d b c : ℝ} (hb : 0 ≤ b) (hc : 0 ≤ c) (hW : b + c < W) (hd : 0 < d) (hne : W ^ 2 - d ^ 2 ≠ (b + c) ^ 2) :
    ∫ y in b..(W - c), Db1 d (momOf b y) (momOf c (W - y)) = d * pairSpace b c (W ^ 2 - d ^ 2) := by
  unfold pairSpace
  split_ifs with h
  · rw [inner_length (by linarith) rfl hd hb hc h, mul_div_assoc]
  · have h' : W ^ 2 - d ^ 2 < (b + c) ^ 2 := lt_of_le_of_ne (not_lt.mp h) hne
    rw [intervalIntegral.integral_congr_Ioo_of_le (g := fun _ => 0) (by linarith), mul_zero]
    · simp
    · intro y hy
      exact beyond_edge hd hb hc hy.1 hy.2 h'

/-- Exchange of the energy of the second product and the momentum transfer. -/
theorem pair_exchange {W b c A B : ℝ} (hb : 0 ≤ b) (hc : 0 ≤ c) (hW : b + c < W) (hA : 0 ≤ A) (hAB : A ≤ B) {f : ℝ → ℝ}
    (hf : Continuous f) :
    ∫ y in b..(W - c), ∫ d in A..B, Db1 d (momOf b y) (momOf c (W - y)) * f d
      = ∫ d in A..B, d * (pairSpace b c (W ^ 2 - d ^ 2) * f d) := by
  have hbc : b ≤ W - c := by linarith
  have hint : Integrable (Function.uncurry fun y d => Db1 d (momOf b y) (momOf c (W - y)) * f d)
      ((volume.restrict (Ioc b (W - c))).prod (volume.restrict (Ioc A B))) := by
    have hm : Measurable (Function.uncurry fun y d => Db1 d (momOf b y) (momOf c (W - y)) * f d) := by
      refine Measurable.mul ?_ (hf.measurable.comp measurable_snd)
      exact Db1_measurable measurable_snd ((momOf_measurable b).comp measurable_fst)
        ((momOf_measurable c).comp (measurable_const.sub measurable_fst))
    obtain ⟨C, hC⟩ := (isCompact_Icc (a := A) (b := B)).exists_bound_of_continuousOn hf.continuousOn
    rw [Measure.prod_restrict]
    refine Measure.integrableOn_of_bounded (M := 2 * C) ?_ hm.aestronglyMeasurable ?_
    · rw [Measure.prod_prod, Real.volume_Ioc, Real.volume_Ioc]
      exact ENNReal.mul_ne_top ENNReal.ofReal_ne_top ENNReal.ofReal_ne_top
    · rw [ae_restrict_iff' (measurableSet_Ioc.prod measurableSet_Ioc)]
      refine Filter.Eventually.of_forall fun z hz => ?_
      have := hC z.2 ⟨hz.2.1.le, hz.2.2⟩
      rw [Real.norm_eq_abs] at this
      change ‖Db1 _ _ _ * f _‖ ≤ _
      rw [Real.norm_eq_abs, abs_mul]
      exact mul_le_mul (Db1_abs_le _ _ _) this (abs_nonneg _) (by norm_num)
  rw [intervalIntegral.integral_of_le hbc]
  simp only [intervalIntegral.integral_of_le hAB]
  rw [integral_integral_swap hint]
  apply integral_congr_ae
  rw [Filter.EventuallyEq, ae_restrict_iff' measurableSet_Ioc]
  have hnull : volume ({√(W ^ 2 - (b + c) ^ 2)} : Set ℝ) = 0 := Real.volume_singleton
  filter_upwards [compl_mem_ae_iff.mpr hnull] with d hd hdi
  have d0 : 0 < d := lt_of_le_of_lt hA hdi.1
  rw [← intervalIntegral.integral_of_le hbc, intervalIntegral.integral_mul_const, pair_length hb hc hW d0, mul_assoc]
  intro he
  apply hd
  rw [mem_singleton_iff, ← he, sub_sub_cancel, Real.sqrt_sq d0.le]

/-- Substitution of the rest-frame energy for the momentum transfer. -/
theorem transfer_subst {E q M A B N : ℝ} (hM : 0 < M) (hA : 0 ≤ A) (hAB : A ≤ B) (g : ℝ → ℝ)
    (hE : (N + A ^ 2) / (2 * M) = E) (hq : (N + B ^ 2) / (2 * M) = q) :
    ∫ d in A..B, d * g ((N + d ^ 2) / (2 * M)) = M * ∫ e in E..q, g e := by
  have hEq : E ≤ q := by
    rw [← hE, ← hq]
    apply div_le_div_of_nonneg_right _ (by positivity)
    nlinarith
  set F : ℝ → ℝ := fun d => (N + d ^ 2) / (2 * M) with hF
  have himg : F '' Ioo A B = Ioo E q := by
    ext e
    constructor
    · rintro ⟨d, hd, rfl⟩
      rw [← hE, ← hq]
      constructor
      · apply div_lt_div_of_pos_right _ (by positivity); nlinarith [hd.1]
      · apply div_lt_div_of_pos_right _ (by positivity); nlinarith [hd.1, hd.2]
    · intro h
      rw [← hE, ← hq] at h
      have h1 := (div_lt_iff₀ (by positivity)).mp h.1
      have h2 := (lt_div_iff₀ (by positivity)).mp h.2
      refine ⟨√(e * (2 * M) - N), ⟨Real.lt_sqrt_of_sq_lt (by linarith), ?_⟩, ?_⟩
      · rw [Real.sqrt_lt' (lt_of_le_of_ne (hA.trans hAB) ?_)]
        · linarith
        · rintro rfl
          nlinarith
      · change (N + √(e * (2 * M) - N) ^ 2) / (2 * M) = e
        rw [Real.sq_sqrt (by nlinarith)]
        field_simp
        ring
  have hder : ∀ d ∈ Ioo A B, HasDerivWithinAt F (d / M) (Ioo A B) d := by
    intro d _
    have : HasDerivAt F (d / M) d := by
      have h1 := ((hasDerivAt_pow 2 d).const_add N).div_const (2 * M)
      rw [show d / M = ((2 : ℕ) : ℝ) * d ^ (2 - 1) / (2 * M) by
        rw [Nat.cast_ofNat, show (2 - 1 : ℕ) = 1 from rfl, pow_one, mul_div_mul_left _ _ two_ne_zero]]
      exact h1
    exact this.hasDerivWithinAt
  have hinj : InjOn F (Ioo A B) := by
    intro x hx y hy h
    have h' : (N + x ^ 2) / (2 * M) = (N + y ^ 2) / (2 * M) := h
    rw [div_left_inj' (by positivity)] at h'
    have hx0 : 0 ≤ x := hA.trans hx.1.le
    have hy0 : 0 ≤ y := hA.trans hy.1.le
    exact (pow_left_inj₀ hx0 hy0 two_ne_zero).mp (by linarith)
  rw [intervalIntegral.integral_of_le hAB, intervalIntegral.integral_of_le hEq, integral_Ioc_eq_integral_Ioo,
    integral_Ioc_eq_integral_Ioo, ← himg, integral_image_eq_integral_abs_deriv_smul measurableSet_Ioo hder hinj,
    ← integral_const_mul]
  apply setIntegral_congr_fun measurableSet_Ioo
  intro d hd
  have d0 : 0 < d := lt_of_le_of_lt hA hd.1
  simp only [smul_eq_mul, abs_of_pos (div_pos d0 hM)]
  change d * g (F d) = M * (d / M * g (F d))
  field_simp

/-! ## Boosts -/

theorem momOf_sq {m E : ℝ} (hm : 0 ≤ m) (hE : m ≤ E) : momOf m E ^ 2 = E ^ 2 - m ^ 2 := by
  unfold momOf; rw [Real.sq_sqrt (by nlinarith)]

/-- Energies before and after a boost: the relation is symmetric. -/
theorem boost_symm {E q M m x e : ℝ} (hE : E ^ 2 = q ^ 2 + M ^ 2) (hq : 0 ≤ q) (hm : 0 ≤ m) (hx : m ≤ x) (he : m ≤ e) :
    |E * x - M * e| < q * momOf m x ↔ |E * e - M * x| < q * momOf m e := by
  rw [← sq_lt_sq₀ (abs_nonneg _) (mul_nonneg hq (momOf_nonneg _ _)), ← sq_lt_sq₀ (abs_nonneg _) (mul_nonneg hq (momOf_nonneg _ _)),
    sq_abs, sq_abs, mul_pow, mul_pow, momOf_sq hm hx, momOf_sq hm he]
  have : (E * x - M * e) ^ 2 - q ^ 2 * (x ^ 2 - m ^ 2) = (E * e - M * x) ^ 2 - q ^ 2 * (e ^ 2 - m ^ 2) := by
    linear_combination (x ^ 2 - e ^ 2) * hE
  constructor <;> intro h <;> linarith

/-- Cauchy–Schwarz: a product of energies exceeds the product of momenta plus that of masses. -/
theorem boost_lower {E q M a p σ : ℝ} (hE : E ^ 2 = q ^ 2 + M ^ 2) (hE0 : 0 ≤ E) (ha : 0 ≤ a) (h : p ^ 2 + σ ^ 2 ≤ a ^ 2) :
    q * p + M * σ ≤ E * a := by
  apply abs_le_of_sq_le_sq' _ (mul_nonneg hE0 ha) |>.2
  rw [mul_pow, hE]
  have h1 : (q * p + M * σ) ^ 2 ≤ (q ^ 2 + M ^ 2) * (p ^ 2 + σ ^ 2) := by nlinarith [sq_nonneg (q * σ - M * p)]
  have h2 := mul_le_mul_of_nonneg_left h (show 0 ≤ q ^ 2 + M ^ 2 by positivity)
  linarith

theorem boost_fubini {E q M m σ : ℝ} (hE : E ^ 2 = q ^ 2 + M ^ 2) (hE0 : 0 < E) (hM : 0 < M) (hq : 0 ≤ q) (hm : 0 ≤ m)
    (hσ : 0 ≤ σ) (ho : m + σ ≤ M) {g : ℝ → ℝ} (hg : Measurable g) {C : ℝ} (hC : ∀ e, m < e → e < (M ^ 2 + m ^ 2 - σ ^ 2) / (2 * M) → |g e| ≤ C)
    (hz : ∀ e, (M ^ 2 + m ^ 2 - σ ^ 2) / (2 * M) ≤ e → g e = 0) :
    ∫ x in m..(E - σ), ∫ e in ((E * x - q * momOf m x) / M)..((E * x + q * momOf m x) / M), g e
      = 2 * q / M * ∫ e in m..(M ^ 2 + m ^ 2 - σ ^ 2) / (2 * M), momOf m e * g e := by
  set Y := (M ^ 2 + m ^ 2 - σ ^ 2) / (2 * M) with hY
  have hEM : M ≤ E := by apply abs_le_of_sq_le_sq' _ hE0.le |>.2; nlinarith
  have hmY : m ≤ Y := by rw [hY, le_div_iff₀ (by positivity)]; nlinarith
  have hYM : Y ≤ M := by rw [hY, div_le_iff₀ (by positivity)]; nlinarith
  have hmX : m ≤ E - σ := by linarith
  let R : Set (ℝ × ℝ) := {z | m < z.1 ∧ z.1 < E - σ ∧ m < z.2 ∧ z.2 < Y ∧ |E * z.1 - M * z.2| < q * momOf m z.1}
  have hR : MeasurableSet R := by
    have h1 : Measurable fun z : ℝ × ℝ => |E * z.1 - M * z.2| := by fun_prop
    have h2 : Measurable fun z : ℝ × ℝ => q * momOf m z.1 := ((momOf_measurable m).comp measurable_fst).const_mul q
    exact (measurableSet_lt measurable_const measurable_fst).inter ((measurableSet_lt measurable_fst measurable_const).inter
      ((measurableSet_lt measurable_const measurable_snd).inter ((measurableSet_lt measurable_snd measurable_const).inter
        (measurableSet_lt h1 h2))))
  have hfin : (volume.prod volume) R ≠ ⊤ := by
    have : R ⊆ Ioo m (E - σ) ×ˢ Ioo m Y := fun z hz => ⟨⟨hz.1, hz.2.1⟩, ⟨hz.2.2.1, hz.2.2.2.1⟩⟩
    refine ne_top_of_le_ne_top ?_ (measure_mono this)
    rw [Measure.prod_prod, Real.volume_Ioo, Real.volume_Ioo]
    exact ENNReal.mul_ne_top ENNReal.ofReal_ne_top ENNReal.ofReal_ne_top
  have hint : Integrable (R.indicator fun z : ℝ × ℝ => g z.2) (volume.prod volume) := by
    rw [integrable_indicator_iff hR]
    apply Measure.integrableOn_of_bounded (M := C) hfin (hg.comp measurable_snd).aestronglyMeasurable
    rw [ae_restrict_iff' hR]
    exact Filter.Eventually.of_forall fun z hz => by rw [Real.norm_eq_abs]; exact hC z.2 hz.2.2.1 hz.2.2.2.1
  have hfst : ∫ x in m..(E - σ), ∫ e in ((E * x - q * momOf m x) / M)..((E * x + q * momOf m x) / M), g e
      = ∫ x, ∫ e, R.indicator (fun z : ℝ × ℝ => g z.2) (x, e) := by
    rw [intervalIntegral.integral_of_le hmX, integral_Ioc_eq_integral_Ioo, ← integral_indicator measurableSet_Ioo]
    congr 1
    funext x
    by_cases hx : x ∈ Ioo m (E - σ)
    · have hp := mul_nonneg hq (momOf_nonneg m x)
      have hle : (E * x - q * momOf m x) / M ≤ (E * x + q * momOf m x) / M :=
        div_le_div_of_nonneg_right (by linarith) hM.le
      rw [indicator_of_mem hx, intervalIntegral.integral_of_le hle, integral_Ioc_eq_integral_Ioo,
        ← integral_indicator measurableSet_Ioo]
      congr 1
      funext e
      have habs : e ∈ Ioo ((E * x - q * momOf m x) / M) ((E * x + q * momOf m x) / M) ↔ |E * x - M * e| < q * momOf m x := by
        rw [mem_Ioo, div_lt_iff₀ hM, lt_div_iff₀ hM, abs_lt]
        constructor
        · rintro ⟨a, b⟩; constructor <;> linarith
        · rintro ⟨a, b⟩; constructor <;> linarith
      by_cases he : |E * x - M * e| < q * momOf m x
      · rw [indicator_of_mem (habs.mpr he)]
        have hme : m < e := by
          have h1 := boost_lower (a := x) (p := momOf m x) (σ := m) hE hE0.le (hm.trans hx.1.le)
            (by rw [momOf_sq hm hx.1.le]; linarith)
          have h2 := (abs_lt.mp he).2
          nlinarith
        by_cases hYe : e < Y
        · rw [indicator_of_mem (show (x, e) ∈ R from ⟨hx.1, hx.2, hme, hYe, he⟩)]
        · rw [indicator_of_notMem (fun h : (x, e) ∈ R => hYe h.2.2.2.1), hz e (not_lt.mp hYe)]
      · rw [indicator_of_notMem (fun h => he (habs.mp h)), indicator_of_notMem (fun h : (x, e) ∈ R => he h.2.2.2.2)]
    · rw [indicator_of_notMem hx]
      rw [show (fun e => R.indicator (fun z : ℝ × ℝ => g z.2) (x, e)) = fun _ => 0 from ?_]
      · simp
      funext e
      exact indicator_of_notMem (fun h : (x, e) ∈ R => hx ⟨h.1, h.2.1⟩) _
  rw [hfst, integral_integral_swap (f := fun x e => R.indicator (fun z : ℝ × ℝ => g z.2) (x, e)) hint, ← intervalIntegral.integral_const_mul, intervalIntegral.integral_of_le hmY,
    integral_Ioc_eq_integral_Ioo, ← integral_indicator measurableSet_Ioo]
  congr 1
  funext e
  by_cases he : e ∈ Ioo m Y
  · rw [indicator_of_mem he]
    have hp := mul_nonneg hq (momOf_nonneg m e)
    have hsec : (fun x => R.indicator (fun z : ℝ × ℝ => g z.2) (x, e))
        = (Ioo ((E * e - q * momOf m e) / M) ((E * e + q * momOf m e) / M)).indicator fun _ => g e := by
      funext x
      have habs : x ∈ Ioo ((E * e - q * momOf m e) / M) ((E * e + q * momOf m e) / M) ↔ |E * e - M * x| < q * momOf m e := by
        rw [mem_Ioo, div_lt_iff₀ hM, lt_div_iff₀ hM, abs_lt]
        constructor
        · rintro ⟨a, b⟩; constructor <;> linarith
        · rintro ⟨a, b⟩; constructor <;> linarith
      by_cases hx : |E * e - M * x| < q * momOf m e
      · rw [indicator_of_mem (habs.mpr hx)]
        have hmx : m < x := by
          have h1 := boost_lower (a := e) (p := momOf m e) (σ := m) hE hE0.le (hm.trans he.1.le)
            (by rw [momOf_sq hm he.1.le]; linarith)
          have h2 := (abs_lt.mp hx).2
          nlinarith
        have hxX : x < E - σ := by
          have hYe : 2 * M * e < M ^ 2 + m ^ 2 - σ ^ 2 := by
            have := (lt_div_iff₀ (by positivity)).mp he.2; linarith
          have h1 := boost_lower (a := M - e) (p := momOf m e) (σ := σ) hE hE0.le (by linarith [he.2])
            (by rw [momOf_sq hm he.1.le]; nlinarith)
          have h2 := (abs_lt.mp hx).1
          nlinarith
        rw [indicator_of_mem (show (x, e) ∈ R from ⟨hmx, hxX, he.1, he.2, (boost_symm hE hq hm hmx.le he.1.le).mpr hx⟩)]
      · rw [indicator_of_notMem (fun h => hx (habs.mp h)), indicator_of_notMem
          (fun h : (x, e) ∈ R => hx ((boost_symm hE hq hm h.1.le he.1.le).mp h.2.2.2.2))]
    rw [hsec, integral_indicator measurableSet_Ioo, setIntegral_const, Real.volume_real_Ioo_of_le
      (div_le_div_of_nonneg_right (by linarith) hM.le), smul_eq_mul]
    ring
  · rw [indicator_of_notMem he]
    rw [show (fun x => R.indicator (fun z : ℝ × ℝ => g z.2) (x, e)) = fun _ => 0 from ?_]
    · simp
    funext x
    exact indicator_of_notMem (fun h : (x, e) ∈ R => he ⟨h.2.2.1, h.2.2.2.1⟩) _

/-! ## Three products -/

/-- Rest-frame energy of a product of mass `a` and energy `x` that leaves momentum `d` to the others. -/
noncomputable def restEnergy (E M a x d : ℝ) : ℝ := (M ^ 2 + a ^ 2 - (E - x) ^ 2 + d ^ 2) / (2 * M)

theorem boost_fst {E q M a b c : ℝ} (hE : E ^ 2 = q ^ 2 + M ^ 2) (hE0 : 0 < E) (hM : 0 < M) (hq : 0 < q) (ha : 0 ≤ a)
    (hb : 0 ≤ b) (hc : 0 ≤ c) (ho : a + b + c ≤ M) {G : ℝ → ℝ} (hG : Continuous G) :
    ∫ x in a..(E - b - c), ∫ y in b..(E - c - x), pairAverage q (momOf a x) (momOf b y) (momOf c (E - x - y))
      (fun d => G (restEnergy E M a x d)) = q * dalitz M a b c G := by
  have hEM : M ≤ E := by apply abs_le_of_sq_le_sq' _ hE0.le |>.2; nlinarith
  set Y := (M ^ 2 + a ^ 2 - (b + c) ^ 2) / (2 * M) with hY
  set g : ℝ → ℝ := fun e => pairSpace b c (M ^ 2 + a ^ 2 - 2 * M * e) * G e with hg
  have h1 : ∀ x ∈ Ioo a (E - b - c), ∫ y in b..(E - c - x), pairAverage q (momOf a x) (momOf b y) (momOf c (E - x - y))
      (fun d => G (restEnergy E M a x d)) =
      M / 2 * ∫ e in ((E * x - q * momOf a x) / M)..((E * x + q * momOf a x) / M), g e := by
    intro x hx
    have hxp := momOf_pos a x ha hx.1
    have hp2 := momOf_sq ha hx.1.le
    have hA : (0:ℝ) ≤ |q - momOf a x| := abs_nonneg _
    have hAB : |q - momOf a x| ≤ q + momOf a x := by rw [abs_le]; constructor <;> linarith
    have hc1 : Continuous fun d => G (restEnergy E M a x d) := by unfold restEnergy; fun_prop
    rw [intervalIntegral.integral_congr_Ioo_of_le (g := fun y => 1 / 2 * ∫ d in |q - momOf a x|..(q + momOf a x),
      Db1 d (momOf b y) (momOf c (E - x - y)) * G (restEnergy E M a x d)) (by linarith [hx.2])
      (fun y hy => pair_split hq hxp (momOf_pos b y hb hy.1) (momOf_pos c _ hc (by linarith [hy.2])) hc1),
      intervalIntegral.integral_const_mul, show E - c - x = E - x - c by ring,
      pair_exchange hb hc (by linarith [hx.2]) hA hAB hc1]
    have hs : ∀ d, (E - x) ^ 2 - d ^ 2 = M ^ 2 + a ^ 2 - 2 * M * restEnergy E M a x d := by
      intro d; unfold restEnergy; field_simp; ring
    simp only [hs]
    have hsub := transfer_subst (N := M ^ 2 + a ^ 2 - (E - x) ^ 2) (E := (E * x - q * momOf a x) / M)
      (q := (E * x + q * momOf a x) / M) hM hA hAB g
      (by rw [sq_abs, div_eq_div_iff (by positivity) (by positivity)]
          linear_combination -M * hE + M * hp2)
      (by rw [div_eq_div_iff (by positivity) (by positivity)]
          linear_combination -M * hE + M * hp2)
    have : ∀ d, d * g ((M ^ 2 + a ^ 2 - (E - x) ^ 2 + d ^ 2) / (2 * M)) =
        d * (pairSpace b c (M ^ 2 + a ^ 2 - 2 * M * restEnergy E M a x d) * G (restEnergy E M a x d)) := fun d => rfl
    simp only [this] at hsub
    rw [hsub]
    ring
  rw [intervalIntegral.integral_congr_Ioo_of_le (by linarith) h1, intervalIntegral.integral_const_mul,
    show E - b - c = E - (b + c) by ring]
  have hgm : Measurable g := by
    refine Measurable.mul ?_ hG.measurable
    exact (pairSpace_measurable b c).comp (by fun_prop)
  obtain ⟨C, hC⟩ := (isCompact_Icc (a := a) (b := Y)).exists_bound_of_continuousOn hG.continuousOn
  rw [boost_fubini (C := C) hE hE0 hM hq.le ha (by linarith) (by linarith) hgm]
  · unfold dalitz
    rw [← hY]
    have hYa : a ≤ Y := by rw [hY, le_div_iff₀ (by positivity)]; nlinarith
    rw [show M / 2 * (2 * q / M * ∫ e in a..Y, momOf a e * g e) = q * ∫ e in a..Y, momOf a e * g e by field_simp]
    congr 1
    refine intervalIntegral.integral_congr_Ioo_of_le hYa fun e he => ?_
    have hs : (b + c) ^ 2 < M ^ 2 + a ^ 2 - 2 * M * e := by
      have := (lt_div_iff₀ (by positivity)).mp he.2; linarith
    simp only [hg]
    unfold pairSpace momOf
    rw [if_pos hs]
    ring
  · intro e h1 h2
    have := hC e ⟨h1.le, h2.le⟩
    rw [Real.norm_eq_abs] at this
    simp only [hg]
    rw [abs_mul, abs_of_nonneg (pairSpace_nonneg _ _ _)]
    calc _ ≤ 1 * |G e| := mul_le_mul_of_nonneg_right (pairSpace_le hb hc _) (abs_nonneg _)
      _ ≤ C := by rw [one_mul]; exact this
  · intro e he
    simp only [hg]
    unfold pairSpace
    rw [if_neg, zero_mul]
    have := (div_le_iff₀ (by positivity)).mp he
    linarith

theorem pairAverage_cont {α : Type*} [TopologicalSpace α] [FirstCountableTopology α] {q1 q2 q3 q4 : α → ℝ} {f : α → ℝ → ℝ}
    (h1 : Continuous q1) (h2 : Continuous q2) (h3 : Continuous q3) (h4 : Continuous q4) (hf : Continuous (Function.uncurry f)) :
    Continuous fun z => pairAverage (q1 z) (q2 z) (q3 z) (q4 z) (f z) := by
  have e : (fun z => pairAverage (q1 z) (q2 z) (q3 z) (q4 z) (f z)) = fun z => 1 / 2 *
      ((∫ d in (0:ℝ)..exHi (q1 z) (q2 z) (q3 z) (q4 z), f z d) - ∫ d in (0:ℝ)..exLo (q1 z) (q2 z) (q3 z) (q4 z), f z d) := by
    funext z
    refine pairAverage_eq _ _ _ _ (f z) (fun t => ∫ d in (0:ℝ)..t, f z d) fun a b => ?_
    have hc : Continuous (f z) := hf.comp (by fun_prop : Continuous fun d : ℝ => (z, d))
    rw [intervalIntegral.integral_interval_sub_left (hc.intervalIntegrable _ _) (hc.intervalIntegrable _ _)]
  rw [e]
  have hlo : Continuous fun z => exLo (q1 z) (q2 z) (q3 z) (q4 z) := by unfold exLo; fun_prop
  have hhi : Continuous fun z => exHi (q1 z) (q2 z) (q3 z) (q4 z) := by unfold exHi; fun_prop
  exact continuous_const.mul ((intervalIntegral.continuous_parametric_intervalIntegral_of_continuous hf hhi).sub
    (intervalIntegral.continuous_parametric_intervalIntegral_of_continuous hf hlo))

theorem momOf_continuous (m : ℝ) : Continuous (momOf m) := by unfold momOf; fun_prop

theorem cont_nice (M m1 m2 m3 : ℝ) {w : ℝ → ℝ → ℝ} (hw : Continuous fun z : ℝ × ℝ => w z.1 z.2) : TriNice M m1 m2 m3 w where
  meas := hw.measurable
  bdd := by
    obtain ⟨C, hC⟩ := (isCompact_Icc (a := (m1, m2)) (b := (M - m3 - m2, M - m3 - m1))).exists_bound_of_continuousOn hw.continuousOn
    refine ⟨C, fun z hz => ?_⟩
    obtain ⟨z1, z2, z3⟩ := hz
    exact hC z ⟨⟨z1.le, z2.le⟩, ⟨by dsimp only; linarith, by dsimp only; linarith⟩⟩

/-- The double integral over the energies of the products of a moving particle, whichever product carries the weight. -/
theorem boost_all {E q M m1 m2 m3 : ℝ} (hE : E ^ 2 = q ^ 2 + M ^ 2) (hE0 : 0 < E) (hM : 0 < M) (hq : 0 < q) (h1 : 0 ≤ m1)
    (h2 : 0 ≤ m2) (h3 : 0 ≤ m3) (ho : m1 + m2 + m3 ≤ M) {G : ℝ → ℝ} (hG : Continuous G) :
    (∫ x in m1..(E - m2 - m3), ∫ y in m2..(E - m3 - x), pairAverage q (momOf m1 x) (momOf m2 y) (momOf m3 (E - x - y))
      (fun d => G (restEnergy E M m1 x d)) = q * dalitz M m1 m2 m3 G) ∧
    (∫ x in m1..(E - m2 - m3), ∫ y in m2..(E - m3 - x), pairAverage q (momOf m2 y) (momOf m1 x) (momOf m3 (E - x - y))
      (fun d => G (restEnergy E M m2 y d)) = q * dalitz M m2 m1 m3 G) ∧
    (∫ x in m1..(E - m2 - m3), ∫ y in m2..(E - m3 - x), pairAverage q (momOf m3 (E - x - y)) (momOf m1 x) (momOf m2 y)
      (fun d => G (restEnergy E M m3 (E - x - y) d)) = q * dalitz M m3 m1 m2 G) := by
  have hEM : M ≤ E := by apply abs_le_of_sq_le_sq' _ hE0.le |>.2; nlinarith
  have nice : ∀ a b c : ℝ, TriNice E a b c (fun x y => pairAverage q (momOf b y) (momOf a x) (momOf c (E - x - y))
      (fun d => G (restEnergy E M b y d))) := by
    intro a b c
    have := momOf_continuous
    refine cont_nice _ _ _ _ (pairAverage_cont (q1 := fun _ => q) (q2 := fun z : ℝ × ℝ => momOf b z.2)
      (q3 := fun z : ℝ × ℝ => momOf a z.1) (q4 := fun z : ℝ × ℝ => momOf c (E - z.1 - z.2))
      (f := fun z d => G (restEnergy E M b z.2 d)) continuous_const ?_ ?_ ?_ ?_)
    · exact (this b).comp continuous_snd
    · exact (this a).comp continuous_fst
    · exact (this c).comp (by fun_prop)
    · unfold restEnergy; fun_prop
  have snd : ∀ a b c : ℝ, 0 ≤ a → 0 ≤ b → 0 ≤ c → a + b + c ≤ M →
      ∫ x in a..(E - b - c), ∫ y in b..(E - c - x), pairAverage q (momOf b y) (momOf a x) (momOf c (E - x - y))
      (fun d => G (restEnergy E M b y d)) = q * dalitz M b a c G := by
    intro a b c ha hb hc hs
    rw [tri_exchange (nice a b c) (by linarith), ← boost_fst hE hE0 hM hq hb ha hc (by linarith) hG]
    simp only [show ∀ x y : ℝ, E - x - y = E - y - x from fun x y => by ring]
  refine ⟨boost_fst hE hE0 hM hq h1 h2 h3 ho hG, snd m1 m2 m3 h1 h2 h3 ho, ?_⟩
  rw [tri_reflect, ← snd m1 m3 m2 h1 h3 h2 (by linarith)]
  simp only [show ∀ x z : ℝ, E - x - (E - x - z) = z from fun x z => by ring]

end PyBBN
