import Verif.Props.DecayRate
import Mathlib.MeasureTheory.Function.Jacobian
import Mathlib.MeasureTheory.Integral.Prod
import Mathlib.MeasureTheory.Group.Integral
/-!
# From momenta to energies in double integrals
-/
namespace PyBBN
open MeasureTheory

/-- Momentum of a particle of mass `m` and energy `E`. -/
noncomputable def momOf (m E : ℝ) : ℝ := √(E ^ 2 - m ^ 2)

theorem momOf_energyOf (m p : ℝ) (hp : 0 ≤ p) : momOf m (energyOf m p) = p := by
  unfold momOf energyOf
  rw [Real.sq_sqrt (by positivity), add_sub_cancel_right, Real.sqrt_sq hp]

theorem energyOf_momOf (m E : ℝ) (hm : 0 ≤ m) (hE : m ≤ E) : energyOf m (momOf m E) = E := by
  unfold momOf energyOf
  have : 0 ≤ E ^ 2 - m ^ 2 := by nlinarith
  rw [Real.sq_sqrt this, sub_add_cancel, Real.sqrt_sq (hm.trans hE)]

theorem momOf_pos (m E : ℝ) (hm : 0 ≤ m) (hE : m < E) : 0 < momOf m E := by
  unfold momOf
  apply Real.sqrt_pos.mpr
  nlinarith

theorem energyOf_gt (m p : ℝ) (hm : 0 ≤ m) (hp : 0 < p) : m < energyOf m p := by
  unfold energyOf
  apply Real.lt_sqrt_of_sq_lt
  nlinarith

theorem momOf_le (m E p : ℝ) (hm : 0 ≤ m) (hE : m ≤ E) (hp : 0 ≤ p) : momOf m E ≤ p ↔ E ≤ energyOf m p := by
  unfold momOf energyOf
  rw [Real.sqrt_le_left hp]
  constructor
  · intro h; exact Real.le_sqrt_of_sq_le (by linarith)
  · intro h
    have := pow_le_pow_left₀ (hm.trans hE) h 2
    rw [Real.sq_sqrt (by positivity)] at this
    linarith

theorem momOf_measurable (m : ℝ) : Measurable (momOf m) := by
  unfold momOf; fun_prop

theorem energyOf_injOn (m : ℝ) : Set.InjOn (energyOf m) (Set.Ioi 0) := by
  intro x hx y hy h
  rw [← momOf_energyOf m x (le_of_lt hx), h, momOf_energyOf m y (le_of_lt hy)]

theorem energyOf_image (m : ℝ) (hm : 0 ≤ m) : energyOf m '' Set.Ioi 0 = Set.Ioi m := by
  ext E
  constructor
  · rintro ⟨p, hp, rfl⟩; exact energyOf_gt m p hm hp
  · intro hE
    exact ⟨momOf m E, momOf_pos m E hm hE, energyOf_momOf m E hm (le_of_lt hE)⟩

theorem energyOf_hasDeriv' (m q : ℝ) (hq : 0 < q) : HasDerivAt (energyOf m) (q / energyOf m q) q := by
  rw [← energyOf_deriv m q hq]; exact energyOf_hasDeriv m q hq

theorem abs_velocity (m p : ℝ) (hp : 0 < p) : |p / energyOf m p| = p / energyOf m p := by
  apply abs_of_nonneg
  unfold energyOf
  positivity

/-- Integrating over the momentum with the velocity as weight is integrating over the energy. -/
theorem integral_toEnergy (m : ℝ) (hm : 0 ≤ m) (g : ℝ → ℝ) :
    ∫ p in Set.Ioi 0, (p / energyOf m p) * g (energyOf m p) = ∫ E in Set.Ioi m, g E := by
  rw [← energyOf_image m hm, integral_image_eq_integral_abs_deriv_smul measurableSet_Ioi
    (fun x hx => (energyOf_hasDeriv' m x hx).hasDerivWithinAt) (energyOf_injOn m)]
  apply setIntegral_congr_fun measurableSet_Ioi
  intro p hp
  simp only [smul_eq_mul, abs_velocity m p hp]

theorem integrable_toEnergy (m : ℝ) (hm : 0 ≤ m) (g : ℝ → ℝ) (h : IntegrableOn g (Set.Ioi m)) :
    IntegrableOn (fun p => (p / energyOf m p) * g (energyOf m p)) (Set.Ioi 0) := by
  rw [← energyOf_image m hm, integrableOn_image_iff_integrableOn_abs_deriv_smul measurableSet_Ioi
    (fun x hx => (energyOf_hasDeriv' m x hx).hasDerivWithinAt) (energyOf_injOn m)] at h
  refine h.congr_fun ?_ measurableSet_Ioi
  intro p hp
  simp only [smul_eq_mul, abs_velocity m p hp]

/-- The inner integral of a collision term in terms of the energy of the second particle. -/
noncomputable def innerOf (m0 m1 : ℝ) (J : ℝ → ℝ → ℝ) (p0 : ℝ) : ℝ :=
  ∫ p1 in Set.Ioi 0, (p1 / energyOf m1 p1) / (p0 * energyOf m0 p0) * J p0 p1

theorem innerOf_eq (m0 m1 : ℝ) (hm1 : 0 ≤ m1) (J : ℝ → ℝ → ℝ) (p0 : ℝ) :
    innerOf m0 m1 J p0 = (p0 * energyOf m0 p0)⁻¹ * ∫ E in Set.Ioi m1, J p0 (momOf m1 E) := by
  unfold innerOf
  rw [← integral_toEnergy m1 hm1, ← integral_const_mul]
  apply setIntegral_congr_fun measurableSet_Ioi
  intro p1 h1
  simp only [momOf_energyOf m1 p1 (le_of_lt h1)]
  ring

theorem weighted_eq (m0 m1 : ℝ) (hm1 : 0 ≤ m1) (J : ℝ → ℝ → ℝ) (q : ℝ → ℝ) (p0 : ℝ) (h0 : 0 < p0) :
    p0 ^ 2 * q (energyOf m0 p0) * innerOf m0 m1 J p0 =
      p0 / energyOf m0 p0 * (fun E0 => q E0 * ∫ E in Set.Ioi m1, J (momOf m0 E0) (momOf m1 E)) (energyOf m0 p0) := by
  rw [innerOf_eq m0 m1 hm1]
  simp only [momOf_energyOf m0 p0 h0.le]
  have : 0 < energyOf m0 p0 := by unfold energyOf; positivity
  field_simp

/-- A weighted integral of a collision term over the momentum of the first particle is a double integral
over the energies. -/
theorem outer_toEnergy (m0 m1 : ℝ) (hm0 : 0 ≤ m0) (hm1 : 0 ≤ m1) (J : ℝ → ℝ → ℝ) (q : ℝ → ℝ) :
    ∫ p0 in Set.Ioi 0, p0 ^ 2 * q (energyOf m0 p0) * innerOf m0 m1 J p0 =
      ∫ E0 in Set.Ioi m0, q E0 * ∫ E in Set.Ioi m1, J (momOf m0 E0) (momOf m1 E) := by
  rw [← integral_toEnergy m0 hm0]
  apply setIntegral_congr_fun measurableSet_Ioi
  intro p0 h0
  exact weighted_eq m0 m1 hm1 J q p0 h0

theorem outer_integrable (m0 m1 : ℝ) (hm0 : 0 ≤ m0) (hm1 : 0 ≤ m1) (J : ℝ → ℝ → ℝ) (q : ℝ → ℝ)
    (h : IntegrableOn (fun E0 => q E0 * ∫ E in Set.Ioi m1, J (momOf m0 E0) (momOf m1 E)) (Set.Ioi m0)) :
    IntegrableOn (fun p0 => p0 ^ 2 * q (energyOf m0 p0) * innerOf m0 m1 J p0) (Set.Ioi 0) := by
  refine (integrable_toEnergy m0 hm0 _ h).congr_fun ?_ measurableSet_Ioi
  intro p0 h0
  exact (weighted_eq m0 m1 hm1 J q p0 h0).symm

/-- The limits of an integral replaced by a condition that agrees with them up to the end points. -/
theorem integral_limits (lo hi : ℝ) (S : ℝ → Prop) [DecidablePred S] (g G : ℝ → ℝ) (h0 : 0 ≤ lo) (hlh : lo ≤ hi)
    (h1 : ∀ p, 0 < p → S p → lo ≤ p ∧ p ≤ hi) (h2 : ∀ p, 0 < p → lo < p → p < hi → S p)
    (hg : ∀ p, 0 < p → S p → g p = G p) :
    ∫ p in lo..hi, g p = ∫ p in Set.Ioi 0, if S p then G p else 0 := by
  rw [intervalIntegral.integral_of_le hlh, integral_Ioc_eq_integral_Ioo]
  have e : ∫ p in Set.Ioi (0 : ℝ), (if S p then G p else 0) =
      ∫ p in Set.Ioi (0 : ℝ), (Set.Ioo lo hi).indicator G p := by
    apply setIntegral_congr_ae measurableSet_Ioi
    have hf : ∀ᵐ x : ℝ, x ∉ ({lo, hi} : Set ℝ) := by
      exact (Set.toFinite ({lo, hi} : Set ℝ)).countable.ae_notMem volume
    filter_upwards [hf] with p hp hp0
    simp only [Set.mem_insert_iff, Set.mem_singleton_iff, not_or] at hp
    by_cases hS : S p
    · obtain ⟨a, b⟩ := h1 p hp0 hS
      have hm : p ∈ Set.Ioo lo hi := ⟨lt_of_le_of_ne a (Ne.symm hp.1), lt_of_le_of_ne b hp.2⟩
      rw [if_pos hS, Set.indicator_of_mem hm]
    · rw [if_neg hS, Set.indicator_of_notMem]
      exact fun h => hS (h2 p hp0 h.1 h.2)
  rw [e, setIntegral_indicator measurableSet_Ioo]
  rw [show Set.Ioi (0 : ℝ) ∩ Set.Ioo lo hi = Set.Ioo lo hi from
    Set.inter_eq_right.mpr fun x hx => lt_of_le_of_lt h0 hx.1]
  apply setIntegral_congr_fun measurableSet_Ioo
  intro p hp
  exact hg p (lt_of_le_of_lt h0 hp.1) (h2 p (lt_of_le_of_lt h0 hp.1) hp.1 hp.2)

theorem integral_point (x : ℝ) (S : ℝ → Prop) [DecidablePred S] (G : ℝ → ℝ) (h : ∀ p, 0 < p → S p → p = x) :
    (0 : ℝ) = ∫ p in Set.Ioi 0, if S p then G p else 0 := by
  symm
  refine Eq.trans (setIntegral_congr_ae (g := fun _ => (0 : ℝ)) measurableSet_Ioi ?_) (by simp)
  have hf : ∀ᵐ y : ℝ, y ∉ ({x} : Set ℝ) := (Set.toFinite ({x} : Set ℝ)).countable.ae_notMem volume
  filter_upwards [hf] with p hp hp0
  rw [if_neg fun hS => hp (h p hp0 hS)]

end PyBBN
namespace PyBBN
open MeasureTheory

/-- Bounded and measurable with bounded support, hence integrable. -/
theorem integrable_box (H : ℝ × ℝ → ℝ) (hm : Measurable H) (C R : ℝ) (hC : ∀ z, |H z| ≤ C)
    (hR : ∀ z, H z ≠ 0 → |z.1| ≤ R ∧ |z.2| ≤ R) : Integrable H (volume.prod volume) := by
  have hs : IntegrableOn H (Set.Icc (-R) R ×ˢ Set.Icc (-R) R) (volume.prod volume) := by
    apply Measure.integrableOn_of_bounded (M := C)
    · rw [Measure.prod_prod]
      exact ENNReal.mul_ne_top (by simp) (by simp)
    · exact hm.aestronglyMeasurable
    · exact Filter.Eventually.of_forall hC
  apply hs.integrable_of_forall_notMem_eq_zero
  intro z hz
  by_contra h
  obtain ⟨a, b⟩ := hR z h
  exact hz ⟨abs_le.mp a, abs_le.mp b⟩

/-- A density of events over the energies of a decaying particle and of its first product: the totals of the three
particles as one integral over the events. -/
theorem balance_totals (G : ℝ → ℝ → ℝ) (hG : Measurable (Function.uncurry G)) (R B : ℝ)
    (hR : ∀ x y, G x y ≠ 0 → |x| ≤ R ∧ |y| ≤ R) (hB : ∀ x y, |G x y| ≤ B)
    (q : Fin 3 → ℝ → ℝ) (hq : ∀ i, Measurable (q i))
    (hqb : ∀ S, ∃ C, ∀ i E, |E| ≤ S → |q i E| ≤ C) :
    Integrable (fun x => q 0 x * ∫ y, G x y) ∧
    Integrable (fun y => q 1 y * ∫ z, G (y + z) y) ∧
    Integrable (fun z => q 2 z * ∫ y, G (y + z) y) ∧
    Integrable (fun z : ℝ × ℝ => (q 0 z.1 - q 1 z.2 - q 2 (z.1 - z.2)) * G z.1 z.2) (volume.prod volume) ∧
    (∫ x, q 0 x * ∫ y, G x y) - (∫ y, q 1 y * ∫ z, G (y + z) y) - (∫ z, q 2 z * ∫ y, G (y + z) y) =
      ∫ z : ℝ × ℝ, (q 0 z.1 - q 1 z.2 - q 2 (z.1 - z.2)) * G z.1 z.2 ∂(volume.prod volume) := by
  have hB0 : 0 ≤ B := (abs_nonneg _).trans (hB 0 0)
  obtain ⟨C, hC⟩ := hqb (2 * R)
  have hmul : ∀ i E x y, |E| ≤ 2 * R ∨ G x y = 0 → |q i E * G x y| ≤ |C| * B := by
    intro i E x y h
    rcases h with h | h
    · rw [abs_mul]
      exact mul_le_mul ((hC i E h).trans (le_abs_self C)) (hB x y) (abs_nonneg _) (abs_nonneg _)
    · rw [h, mul_zero, abs_zero]; positivity
  have hR2 : ∀ x y, (|x| ≤ 2 * R ∧ |y| ≤ 2 * R ∧ |x - y| ≤ 2 * R) ∨ G x y = 0 := by
    intro x y
    by_cases h : G x y = 0
    · exact Or.inr h
    · obtain ⟨a, b⟩ := hR x y h
      have := abs_nonneg x
      refine Or.inl ⟨by linarith, by linarith, ?_⟩
      exact (abs_sub x y).trans (by linarith)
  have hsup : ∀ (w x y : ℝ), w * G x y ≠ 0 → |x| ≤ 2 * R ∧ |y| ≤ 2 * R ∧ |x - y| ≤ 2 * R := by
    intro w x y h
    rcases hR2 x y with h' | h'
    · exact h'
    · exact absurd (by rw [h', mul_zero]) h
  have mG : ∀ {α : Type} [MeasurableSpace α] (a b : α → ℝ), Measurable a → Measurable b →
      Measurable fun t => G (a t) (b t) := by
    intro α _ a b ha hb
    exact hG.comp (ha.prodMk hb)
  -- the densities as functions of two variables
  have i0 : Integrable (fun z : ℝ × ℝ => q 0 z.1 * G z.1 z.2) (volume.prod volume) := by
    apply integrable_box _ _ (|C| * B) (2 * R)
    · exact fun z => hmul 0 z.1 z.1 z.2 ((hR2 z.1 z.2).imp (fun h => h.1) id)
    · exact fun z h => ⟨(hsup _ _ _ h).1, (hsup _ _ _ h).2.1⟩
    · exact ((hq 0).comp measurable_fst).mul (mG _ _ measurable_fst measurable_snd)
  have i1 : Integrable (fun z : ℝ × ℝ => q 1 z.2 * G z.1 z.2) (volume.prod volume) := by
    apply integrable_box _ _ (|C| * B) (2 * R)
    · exact fun z => hmul 1 z.2 z.1 z.2 ((hR2 z.1 z.2).imp (fun h => h.2.1) id)
    · exact fun z h => ⟨(hsup _ _ _ h).1, (hsup _ _ _ h).2.1⟩
    · exact ((hq 1).comp measurable_snd).mul (mG _ _ measurable_fst measurable_snd)
  have i2 : Integrable (fun z : ℝ × ℝ => q 2 (z.1 - z.2) * G z.1 z.2) (volume.prod volume) := by
    apply integrable_box _ _ (|C| * B) (2 * R)
    · exact fun z => hmul 2 (z.1 - z.2) z.1 z.2 ((hR2 z.1 z.2).imp (fun h => h.2.2) id)
    · exact fun z h => ⟨(hsup _ _ _ h).1, (hsup _ _ _ h).2.1⟩
    · exact ((hq 2).comp (measurable_fst.sub measurable_snd)).mul (mG _ _ measurable_fst measurable_snd)
  have j1 : Integrable (fun z : ℝ × ℝ => q 1 z.1 * G (z.1 + z.2) z.1) (volume.prod volume) := by
    apply integrable_box _ _ (|C| * B) (2 * R)
    · exact fun z => hmul 1 z.1 _ z.1 ((hR2 (z.1 + z.2) z.1).imp (fun h => h.2.1) id)
    · exact fun z h => ⟨(hsup _ _ _ h).2.1, by have := (hsup _ _ _ h).2.2; rwa [add_sub_cancel_left] at this⟩
    · exact ((hq 1).comp measurable_fst).mul (mG _ _ (measurable_fst.add measurable_snd) measurable_fst)
  have j2 : Integrable (fun z : ℝ × ℝ => q 2 z.1 * G (z.2 + z.1) z.2) (volume.prod volume) := by
    apply integrable_box _ _ (|C| * B) (2 * R)
    · exact fun z => hmul 2 z.1 _ z.2 ((hR2 (z.2 + z.1) z.2).imp
        (fun h => by have := h.2.2; rwa [add_sub_cancel_left] at this) id)
    · exact fun z h => ⟨by have := (hsup _ _ _ h).2.2; rwa [add_sub_cancel_left] at this, (hsup _ _ _ h).2.1⟩
    · exact ((hq 2).comp measurable_fst).mul (mG _ _ (measurable_snd.add measurable_fst) measurable_snd)
  have e0 : (fun x => q 0 x * ∫ y, G x y) = fun x => ∫ y, q 0 x * G x y :=
    funext fun x => (integral_const_mul _ _).symm
  have e1 : (fun y => q 1 y * ∫ z, G (y + z) y) = fun y => ∫ z, q 1 y * G (y + z) y :=
    funext fun x => (integral_const_mul _ _).symm
  have e2 : (fun z => q 2 z * ∫ y, G (y + z) y) = fun z => ∫ y, q 2 z * G (y + z) y :=
    funext fun x => (integral_const_mul _ _).symm
  rw [e0, e1, e2]
  have ei : (fun z : ℝ × ℝ => (q 0 z.1 - q 1 z.2 - q 2 (z.1 - z.2)) * G z.1 z.2) = fun z : ℝ × ℝ =>
      q 0 z.1 * G z.1 z.2 - q 1 z.2 * G z.1 z.2 - q 2 (z.1 - z.2) * G z.1 z.2 := by funext z; ring
  refine ⟨i0.integral_prod_left, j1.integral_prod_left, j2.integral_prod_left, ?_, ?_⟩
  · rw [ei]; exact (i0.sub i1).sub i2
  have s1 : ∫ y, ∫ z, q 1 y * G (y + z) y = ∫ z : ℝ × ℝ, q 1 z.2 * G z.1 z.2 ∂(volume.prod volume) := by
    rw [integral_prod_symm _ i1]
    congr 1
    funext y
    exact integral_add_left_eq_self (fun x => q 1 y * G x y) y
  have s2 : ∫ z, ∫ y, q 2 z * G (y + z) y = ∫ z : ℝ × ℝ, q 2 (z.1 - z.2) * G z.1 z.2 ∂(volume.prod volume) := by
    rw [integral_prod_symm _ i2, integral_integral_swap j2]
    congr 1
    funext y
    have := integral_add_left_eq_self (μ := volume) (fun x => q 2 (x - y) * G x y) y
    rw [← this]
    simp only [add_sub_cancel_left]
  have s0 : ∫ x, ∫ y, q 0 x * G x y = ∫ z : ℝ × ℝ, q 0 z.1 * G z.1 z.2 ∂(volume.prod volume) :=
    (integral_prod _ i0).symm
  rw [s0, s1, s2, ei]
  have e : ∫ z : ℝ × ℝ, (q 0 z.1 * G z.1 z.2 - q 1 z.2 * G z.1 z.2) - q 2 (z.1 - z.2) * G z.1 z.2
      ∂(volume.prod volume) = (∫ z : ℝ × ℝ, q 0 z.1 * G z.1 z.2 - q 1 z.2 * G z.1 z.2 ∂(volume.prod volume)) -
      ∫ z : ℝ × ℝ, q 2 (z.1 - z.2) * G z.1 z.2 ∂(volume.prod volume) := integral_sub (i0.sub i1) i2
  rw [e, integral_sub i0 i1]

end PyBBN
