import Verif.Lemmas.TwoBody
import Verif.Props.CutOff
/-!
# C64, C65: the integration limits contain every allowed configuration

"Allowed" is what the integrand itself decides: its value is not 0 (C35 relates this to energy and
momentum conservation).
-/
namespace PyBBN

/-- The loop context of a reaction (masses and sum of sides). -/
def ctx4 (r : Fin 4 → Reactant) (max3 : ℝ) : LoopCtx :=
  ⟨reactionTypeSum [r 0, r 1, r 2, r 3], (r 0).specie.m, (r 1).specie.m, (r 2).specie.m,
    (r 3).specie.m, max3⟩

/-- `p1` and `p2` are inside the limits used by the outer and the inner quadrature. -/
def InnerCovered (c : LoopCtx) (p0 p1 p2 : ℝ) (dflt : ℝ × ℝ) : Prop :=
  ∃ lo hi, innerLimits c.type c.m0 c.m1 c.m2 c.m3 c.max3 p0 p1 dflt = some (lo, hi) ∧
    lo ≤ p2 ∧ p2 ≤ hi

theorem momenta4_nonneg (r : Fin 4 → Reactant) {p0 p1 p2 : ℝ} (h0 : 0 ≤ p0) (h1 : 0 ≤ p1)
    (h2 : 0 ≤ p2) : ∀ i, 0 ≤ momenta4 r p0 p1 p2 i := by
  intro i
  fin_cases i
  exacts [h0, h1, h2, Real.sqrt_nonneg _]

/-- **C64, decays.** If the integrand is not zero, `p1` does not exceed the upper limit the loop
sets and `p2` lies within the limits of the inner integral. -/
theorem C64_decay (r : Fin 4 → Reactant) (Ms : List CM) (kind : ℤ) (max3 p0 p1 p2 v : ℝ)
    (st dflt : ℝ × ℝ)
    (s0 : (r 0).side = -1) (s1 : (r 1).side = 1) (s2 : (r 2).side = 1) (s3 : (r 3).side = 1)
    (h0 : 0 ≤ p0) (h1 : 0 ≤ p1) (h2 : 0 ≤ p2)
    (hv : v ≠ 0) (h : integrandFull4 p0 p1 p2 r Ms kind = .ok v) :
    (outerLimits (ctx4 r max3) p0 st).2 = true ∧
    (outerLimits (ctx4 r max3) p0 st).1.1 = st.1 ∧
    p1 ≤ (outerLimits (ctx4 r max3) p0 st).1.2 ∧
    InnerCovered (ctx4 r max3) p0 p1 p2 dflt := by
  obtain ⟨hE, -⟩ := C35_integrand_support p0 p1 p2 r Ms kind h0 h1 h2 v hv h
  have ht : (ctx4 r max3).type = 2 := by simp [ctx4, reactionTypeSum, s0, s1, s2, s3]
  have hE3 : (r 3).specie.m ≤
      energy p0 (r 0).specie.m - energy p1 (r 1).specie.m - energy p2 (r 2).specie.m := by
    unfold lastEnergy4 at hE
    rw [s0, s1, s2, s3] at hE
    push_cast at hE
    linarith
  have e2 := mass_le_energy p2 (r 2).specie.m
  unfold outerLimits InnerCovered innerLimits
  rw [ht]
  simp only [if_true]
  refine ⟨trivial, trivial, ?_, _, _, rfl, h2, ?_⟩
  · exact le_sqrt_of_energy_le (by simp only [ctx4]; linarith)
  · unfold p2MaxDec
    exact le_sqrt_of_energy_le (by simp only [ctx4]; linarith)

/-- **C64, decays.** The radicands in the limits are non-negative for a decay that is open, so the
limits are real numbers in C++ as well. -/
theorem C64_decay_real (r : Fin 4 → Reactant) (p0 p1 : ℝ)
    (hm1 : 0 ≤ (r 1).specie.m) (hm2 : 0 ≤ (r 2).specie.m)
    (hopen : (r 1).specie.m + (r 2).specie.m + (r 3).specie.m ≤ (r 0).specie.m)
    (h1 : 0 ≤ p1)
    (hp1 : p1 ≤ √((energy p0 (r 0).specie.m - (r 2).specie.m - (r 3).specie.m) ^ 2
      - (r 1).specie.m ^ 2)) :
    0 ≤ (energy p0 (r 0).specie.m - (r 2).specie.m - (r 3).specie.m) ^ 2 - (r 1).specie.m ^ 2 ∧
    0 ≤ (energy p0 (r 0).specie.m - energy p1 (r 1).specie.m - (r 3).specie.m) ^ 2
      - (r 2).specie.m ^ 2 := by
  have e0 := mass_le_energy p0 (r 0).specie.m
  have a1 : 0 ≤ (energy p0 (r 0).specie.m - (r 2).specie.m - (r 3).specie.m) ^ 2
      - (r 1).specie.m ^ 2 := by
    have := pow_le_pow_left₀ hm1 (show (r 1).specie.m ≤
      energy p0 (r 0).specie.m - (r 2).specie.m - (r 3).specie.m by linarith) 2
    linarith
  refine ⟨a1, ?_⟩
  have a2 : energy p1 (r 1).specie.m ≤
      energy p0 (r 0).specie.m - (r 2).specie.m - (r 3).specie.m := by
    apply (sq_le_sq₀ (energy_nonneg _ _) (by linarith)).mp
    rw [energy_sq]
    have := pow_le_pow_left₀ h1 hp1 2
    rw [Real.sq_sqrt a1] at this
    linarith
  have := pow_le_pow_left₀ hm2 (show (r 2).specie.m ≤
    energy p0 (r 0).specie.m - energy p1 (r 1).specie.m - (r 3).specie.m by linarith) 2
  linarith

theorem scat_energy {r : Fin 4 → Reactant} {p0 p1 p2 : ℝ}
    (s0 : (r 0).side = -1) (s1 : (r 1).side = -1) (s2 : (r 2).side = 1) (s3 : (r 3).side = 1) :
    lastEnergy4 r p0 p1 p2 =
      energy p0 (r 0).specie.m + energy p1 (r 1).specie.m - energy p2 (r 2).specie.m := by
  unfold lastEnergy4
  rw [s0, s1, s2, s3]
  push_cast
  ring

/-- Both limits of the inner integral in scattering. -/
theorem scat_inner (m0 m1 m2 m3 p0 p1 p2 p3 E3 : ℝ) (hm0 : 0 ≤ m0) (hm3 : 0 ≤ m3)
    (h0 : 0 ≤ p0) (h1 : 0 ≤ p1) (h2 : 0 ≤ p2) (h3 : 0 ≤ p3) (hE3 : m3 ≤ E3)
    (hp3 : E3 ^ 2 = p3 ^ 2 + m3 ^ 2)
    (hE : energy p2 m2 + E3 = energy p0 m0 + energy p1 m1)
    (t1 : p1 ≤ p0 + p2 + p3) (t2 : p2 ≤ p0 + p1 + p3) (t3 : p3 ≤ p0 + p1 + p2) :
    p2MinScat m0 m1 m2 m3 p0 p1 ≤ p2 ∧ p2 ≤ p2MaxScat m0 m1 m2 m3 p0 p1 := by
  unfold p2MinScat p2MaxScat
  by_cases hp0 : p0 = 0
  · subst hp0
    have e0 : energy 0 m0 = m0 := by unfold energy; simp [Real.sqrt_mul_self hm0]
    rw [e0] at hE
    simp only [ne_eq, not_true_eq_false, if_false]
    by_cases hm0' : m0 = 0
    · subst hm0'
      simp only [not_true_eq_false, if_false]
      by_cases hm1 : m1 = 0
      · subst hm1
        have e1 : energy p1 0 = p1 := by unfold energy; simp [Real.sqrt_mul_self h1]
        rw [e1] at hE
        simp only [not_true_eq_false, if_false]
        exact ⟨h2, by linarith [le_energy p2 m2]⟩
      · simp only [hm1, not_false_eq_true, if_true]
        have hW := energy_nonneg p1 m1
        obtain ⟨c1, c2⟩ := cos_decay (P := p1) (W := energy p1 m1) (by linarith) (energy_sq p2 m2) hp3
          h3 (by linarith) (by linarith) (by linarith)
        obtain ⟨r0, r1, r2⟩ := twoBody_roots hW h1 (le_energy p1 m1) h2 (energy_nonneg p2 m2)
          (energy_sq p2 m2) c1 c2
        rw [energy_sq] at r0 r1 r2
        have er : (p1 ^ 2 + m1 ^ 2) * ((p1 ^ 2 + m1 ^ 2 - p1 ^ 2 + m2 ^ 2 - m3 ^ 2) ^ 2 -
            4 * (p1 ^ 2 + m1 ^ 2 - p1 ^ 2) * m2 ^ 2) = scatRad1 m1 m2 m3 p1 := by
          unfold scatRad1
          rw [if_neg]
          · ring
          · rw [not_lt]
            have e : (p1 ^ 2 + m1 ^ 2) *
                (m1 ^ 4 + (m2 ^ 2 - m3 ^ 2) ^ 2 - 2 * m1 ^ 2 * (m2 ^ 2 + m3 ^ 2)) =
              (p1 ^ 2 + m1 ^ 2) * ((p1 ^ 2 + m1 ^ 2 - p1 ^ 2 + m2 ^ 2 - m3 ^ 2) ^ 2 -
                4 * (p1 ^ 2 + m1 ^ 2 - p1 ^ 2) * m2 ^ 2) := by ring
            rw [e]; exact r0
        rw [er] at r1 r2
        obtain ⟨r3, r4⟩ := abs_le.mp r1
        have hpos : 0 < 2 * m1 ^ 2 := by positivity
        refine ⟨max_le ?_ ?_, ?_⟩
        · rw [div_le_iff₀ hpos]; linarith
        · rw [← neg_div, div_le_iff₀ hpos]; linarith
        · rw [le_div_iff₀ hpos]; linarith
    · simp only [hm0', not_false_eq_true, if_true]
      have hm0p : 0 < m0 := lt_of_le_of_ne hm0 (Ne.symm hm0')
      have e1p := le_energy p1 m1
      obtain ⟨c1, c2⟩ := cos_decay (P := p1) (W := m0 + energy p1 m1) (by linarith) (energy_sq p2 m2)
        hp3 h3 (by linarith) (by linarith) (by linarith)
      obtain ⟨r0, r1, r2⟩ := twoBody_roots (by linarith [energy_nonneg p1 m1]) h1
        (by linarith) h2 (energy_nonneg p2 m2) (energy_sq p2 m2) c1 c2
      obtain ⟨r3, r4⟩ := abs_le.mp r1
      have hspos : 0 < (m0 + energy p1 m1) ^ 2 - p1 ^ 2 := by nlinarith
      split_ifs with hz hgt
      · obtain ⟨z1, z2, z3⟩ := hz
        subst z1 z2 z3
        have e1 : energy p1 0 = p1 := by unfold energy; simp [Real.sqrt_mul_self h1]
        rw [e1] at r2 r4 hspos
        have er : √((m0 + p1) ^ 2 * (((m0 + p1) ^ 2 - p1 ^ 2 + 0 ^ 2 - 0 ^ 2) ^ 2 -
            4 * ((m0 + p1) ^ 2 - p1 ^ 2) * 0 ^ 2)) = (m0 + p1) * ((m0 + p1) ^ 2 - p1 ^ 2) := by
          rw [show (m0 + p1) ^ 2 * (((m0 + p1) ^ 2 - p1 ^ 2 + 0 ^ 2 - 0 ^ 2) ^ 2 -
            4 * ((m0 + p1) ^ 2 - p1 ^ 2) * 0 ^ 2) = ((m0 + p1) * ((m0 + p1) ^ 2 - p1 ^ 2)) ^ 2 by ring,
            Real.sqrt_sq (by positivity)]
        rw [er] at r2 r4
        constructor
        · have : ((m0 + p1) ^ 2 - p1 ^ 2) * (m0 / 2) ≤ ((m0 + p1) ^ 2 - p1 ^ 2) * p2 := by linarith
          exact le_of_mul_le_mul_left this hspos
        · have : ((m0 + p1) ^ 2 - p1 ^ 2) * p2 ≤ ((m0 + p1) ^ 2 - p1 ^ 2) * ((m0 + 2 * p1) / 2) := by
            linarith
          exact le_of_mul_le_mul_left this hspos
      · have ee : √(m1 ^ 2 + p1 ^ 2) = energy p1 m1 := by
          unfold energy; congr 1; ring
        simp only [ee]
        have er : (m0 + energy p1 m1) ^ 2 *
            (((m0 + energy p1 m1) ^ 2 - p1 ^ 2 + m2 ^ 2 - m3 ^ 2) ^ 2 -
            4 * ((m0 + energy p1 m1) ^ 2 - p1 ^ 2) * m2 ^ 2) =
            scatRad (m0 + energy p1 m1) (m3 ^ 2 + p1 ^ 2) m2 p1 := by
          unfold scatRad; ring
        rw [er] at r2 r4
        have hpos : 0 < 2 * ((m0 + energy p1 m1) ^ 2 - p1 ^ 2) := by linarith
        refine ⟨max_le ?_ h2, le_max_of_le_left ?_⟩
        · rw [div_le_iff₀ hpos]; linarith
        · rw [le_div_iff₀ hpos]; linarith
      · exact ⟨h2, le_sqrt_of_energy_le (by linarith)⟩
  · simp only [ne_eq, hp0, not_false_eq_true, if_true]
    exact ⟨h2, le_sqrt_of_energy_le (by linarith)⟩

/-- **C64, scattering.** With reactants 0, 1 on the left and 2, 3 on the right: `p1` is not below the
lower limit, the upper limit never cuts below the caller's, and `p2` is inside the limits of the
inner integral. -/
theorem C64_scattering (r : Fin 4 → Reactant) (Ms : List CM) (kind : ℤ) (max3 p0 p1 p2 v : ℝ)
    (st dflt : ℝ × ℝ)
    (s0 : (r 0).side = -1) (s1 : (r 1).side = -1) (s2 : (r 2).side = 1) (s3 : (r 3).side = 1)
    (hm0 : 0 ≤ (r 0).specie.m) (hm3 : 0 ≤ (r 3).specie.m)
    (h0 : 0 ≤ p0) (h1 : 0 ≤ p1) (h2 : 0 ≤ p2)
    (hv : v ≠ 0) (h : integrandFull4 p0 p1 p2 r Ms kind = .ok v) :
    (outerLimits (ctx4 r max3) p0 st).2 = true ∧
    (outerLimits (ctx4 r max3) p0 st).1.1 ≤ p1 ∧
    st.2 ≤ (outerLimits (ctx4 r max3) p0 st).1.2 ∧
    InnerCovered (ctx4 r max3) p0 p1 p2 dflt := by
  obtain ⟨hE, hc⟩ := C35_integrand_support p0 p1 p2 r Ms kind h0 h1 h2 v hv h
  have ht : (ctx4 r max3).type = 0 := by simp [ctx4, reactionTypeSum, s0, s1, s2, s3]
  have ee : lastEnergy4 r p0 p1 p2 = _ := scat_energy s0 s1 s2 s3
  obtain ⟨-, t1, t2, t3⟩ := (canClose4_iff _ (momenta4_nonneg r h0 h1 h2)).mp hc
  have hp3 : lastEnergy4 r p0 p1 p2 ^ 2 =
      momenta4 r p0 p1 p2 3 ^ 2 + (r 3).specie.m ^ 2 := by
    change _ = √(lastEnergy4 r p0 p1 p2 ^ 2 - (r 3).specie.m ^ 2) ^ 2 + _
    rw [Real.sq_sqrt]
    · ring
    · have := pow_le_pow_left₀ hm3 hE 2; linarith
  have e2 := mass_le_energy p2 (r 2).specie.m
  unfold outerLimits InnerCovered innerLimits
  rw [ht]
  simp only [show ¬ (0 : ℤ) = 2 by decide, if_false, if_true]
  refine ⟨trivial, ?_, ?_, _, _, rfl, ?_⟩
  · unfold scatMin1
    dsimp only
    split_ifs with hh
    · exact h1
    · push Not at hh
      exact sqrt_le_of_le_energy h1 hh.1.le (by simp only [ctx4]; linarith)
  · split_ifs with hh
    · exact le_refl _
    · exact not_lt.mp hh
  · exact scat_inner _ _ _ _ p0 p1 p2 _ _ hm0 hm3 h0 h1 h2
      (momenta4_nonneg r h0 h1 h2 3) hE hp3 (by simp only [ctx4]; linarith) t1 t2 t3

/-- **C64, creation.** With reactants 0, 1, 2 on the left and a massive 3 on the right: every
configuration with positive momenta whose fourth momentum does not exceed `max_3` is inside the
limits. -/
theorem C64_creation (r : Fin 4 → Reactant) (Ms : List CM) (kind : ℤ) (max3 p0 p1 p2 v : ℝ)
    (st dflt : ℝ × ℝ)
    (s0 : (r 0).side = -1) (s1 : (r 1).side = -1) (s2 : (r 2).side = -1) (s3 : (r 3).side = 1)
    (hm3 : 0 < (r 3).specie.m) (hm2 : 0 ≤ (r 2).specie.m)
    (h0 : 0 ≤ p0) (h1 : 0 < p1) (h2 : 0 < p2)
    (hv : v ≠ 0) (h : integrandFull4 p0 p1 p2 r Ms kind = .ok v)
    (hmax : momenta4 r p0 p1 p2 3 ≤ max3) :
    (outerLimits (ctx4 r max3) p0 st).2 = true ∧
    (outerLimits (ctx4 r max3) p0 st).1.1 ≤ p1 ∧
    p1 ≤ (outerLimits (ctx4 r max3) p0 st).1.2 ∧
    InnerCovered (ctx4 r max3) p0 p1 p2 dflt := by
  obtain ⟨hE, hc⟩ := C35_integrand_support p0 p1 p2 r Ms kind h0 h1.le h2.le v hv h
  have ht : (ctx4 r max3).type = -2 := by simp [ctx4, reactionTypeSum, s0, s1, s2, s3]
  have ee : lastEnergy4 r p0 p1 p2 = energy p0 (r 0).specie.m + energy p1 (r 1).specie.m
      + energy p2 (r 2).specie.m := by
    unfold lastEnergy4
    rw [s0, s1, s2, s3]; push_cast; ring
  have hp3 : lastEnergy4 r p0 p1 p2 ^ 2 =
      momenta4 r p0 p1 p2 3 ^ 2 + (r 3).specie.m ^ 2 := by
    change _ = √(lastEnergy4 r p0 p1 p2 ^ 2 - (r 3).specie.m ^ 2) ^ 2 + _
    rw [Real.sq_sqrt]
    · ring
    · have := pow_le_pow_left₀ hm3.le hE 2; linarith
  have hE3 : lastEnergy4 r p0 p1 p2 ≤ energy max3 (r 3).specie.m := by
    apply (sq_le_sq₀ (hm3.le.trans hE) (energy_nonneg _ _)).mp
    rw [energy_sq, hp3]
    have := pow_le_pow_left₀ (momenta4_nonneg r h0 h1.le h2.le 3) hmax 2
    linarith
  have e1 := le_energy p1 (r 1).specie.m
  have e2 := mass_le_energy p2 (r 2).specie.m
  have e2' := le_energy p2 (r 2).specie.m
  have q1 := energy_sq p1 (r 1).specie.m
  have q2 := energy_sq p2 (r 2).specie.m
  have x1 : energy p1 (r 1).specie.m ≤ energy max3 (r 3).specie.m - (r 2).specie.m
      - energy p0 (r 0).specie.m := by linarith
  have x2 : energy p2 (r 2).specie.m ≤ energy max3 (r 3).specie.m - energy p0 (r 0).specie.m
      - energy p1 (r 1).specie.m := by linarith
  unfold outerLimits InnerCovered innerLimits
  rw [ht]
  simp only [show ¬ (-2 : ℤ) = 2 by decide, show ¬ (-2 : ℤ) = 0 by decide, if_false, if_true]
  rw [if_neg (show ¬ (ctx4 r max3).m3 = 0 from hm3.ne')]
  have y1 := pow_le_pow_left₀ (energy_nonneg p1 (r 1).specie.m) x1 2
  have y2 := pow_le_pow_left₀ (energy_nonneg p2 (r 2).specie.m) x2 2
  have n1 : ¬ (energy max3 (r 3).specie.m - (r 2).specie.m - energy p0 (r 0).specie.m ≤ 0 ∨
      (energy max3 (r 3).specie.m - (r 2).specie.m - energy p0 (r 0).specie.m) ^ 2
        - (r 1).specie.m ^ 2 ≤ 0) := by
    push Not
    exact ⟨by linarith, by nlinarith [pow_pos h1 2]⟩
  have n2 : ¬ (energy max3 (r 3).specie.m - energy p0 (r 0).specie.m - energy p1 (r 1).specie.m ≤ 0 ∨
      (energy max3 (r 3).specie.m - energy p0 (r 0).specie.m - energy p1 (r 1).specie.m) ^ 2
        - (r 2).specie.m ^ 2 ≤ 0) := by
    push Not
    exact ⟨by linarith, by nlinarith [pow_pos h2 2]⟩
  rw [if_neg (show ¬ (energy (ctx4 r max3).max3 (ctx4 r max3).m3 - (ctx4 r max3).m2 -
        energy p0 (ctx4 r max3).m0 ≤ 0 ∨ (energy (ctx4 r max3).max3 (ctx4 r max3).m3 -
        (ctx4 r max3).m2 - energy p0 (ctx4 r max3).m0) ^ 2 - (ctx4 r max3).m1 ^ 2 ≤ 0) from n1),
    if_neg (show ¬ (energy (ctx4 r max3).max3 (ctx4 r max3).m3 - energy p0 (ctx4 r max3).m0 -
        energy p1 (ctx4 r max3).m1 ≤ 0 ∨ (energy (ctx4 r max3).max3 (ctx4 r max3).m3 -
        energy p0 (ctx4 r max3).m0 - energy p1 (ctx4 r max3).m1) ^ 2 - (ctx4 r max3).m2 ^ 2 ≤ 0)
        from n2)]
  refine ⟨rfl, h1.le, le_sqrt_of_energy_le x1, _, _, rfl, ?_, le_sqrt_of_energy_le x2⟩
  split_ifs with hh
  · exact h2.le
  · push Not at hh
    exact sqrt_le_of_le_energy h2.le hh.1.le (by simp only [ctx4]; linarith)

/-- **C64, creation.** A massless product is skipped.  Nothing with a genuine opening angle is lost: energy and
momentum conservation then force all four momenta to be parallel. -/
theorem C64_creation_massless (r : Fin 4 → Reactant) (max3 p0 : ℝ) (st : ℝ × ℝ)
    (s0 : (r 0).side = -1) (s1 : (r 1).side = -1) (s2 : (r 2).side = -1) (s3 : (r 3).side = 1)
    (hm3 : (r 3).specie.m = 0) :
    (outerLimits (ctx4 r max3) p0 st).2 = false ∧
    ∀ p1 p2, 0 ≤ p0 → 0 ≤ p1 → 0 ≤ p2 → CanClose (momenta4 r p0 p1 p2) →
      momenta4 r p0 p1 p2 3 = p0 + p1 + p2 := by
  have ht : (ctx4 r max3).type = -2 := by simp [ctx4, reactionTypeSum, s0, s1, s2, s3]
  constructor
  · unfold outerLimits
    rw [ht]
    simp only [show ¬ (-2 : ℤ) = 2 by decide, show ¬ (-2 : ℤ) = 0 by decide, if_false, if_true]
    rw [if_pos (show (ctx4 r max3).m3 = 0 from hm3)]
  · intro p1 p2 h0 h1 h2 hc
    obtain ⟨-, -, -, t3⟩ := (canClose4_iff _ (momenta4_nonneg r h0 h1 h2)).mp hc
    refine le_antisymm t3 ?_
    change _ ≤ √(lastEnergy4 r p0 p1 p2 ^ 2 - (r 3).specie.m ^ 2)
    rw [hm3]
    apply Real.le_sqrt_of_sq_le
    have ee : lastEnergy4 r p0 p1 p2 = energy p0 (r 0).specie.m + energy p1 (r 1).specie.m
        + energy p2 (r 2).specie.m := by
      unfold lastEnergy4
      rw [s0, s1, s2, s3]; push_cast; ring
    have := pow_le_pow_left₀ (show 0 ≤ p0 + p1 + p2 by linarith) (show p0 + p1 + p2 ≤
      lastEnergy4 r p0 p1 p2 by
        rw [ee]; linarith [le_energy p0 (r 0).specie.m, le_energy p1 (r 1).specie.m,
          le_energy p2 (r 2).specie.m]) 2
    linarith

/-! ## Three particles -/

/-- The loop context of a three-particle reaction. -/
def ctx3 (r : Fin 3 → Reactant) (max2 : ℝ) : LoopCtx3 :=
  ⟨reactionTypeSum [r 0, r 1, r 2], (r 0).specie.m, (r 1).specie.m, (r 2).specie.m, max2⟩

theorem momenta3_nonneg (r : Fin 3 → Reactant) {p0 p1 : ℝ} (h0 : 0 ≤ p0) (h1 : 0 ≤ p1) :
    ∀ i, 0 ≤ momenta3 r p0 p1 i := by
  intro i
  fin_cases i
  exacts [h0, h1, Real.sqrt_nonneg _]

/-- What a non-zero three-particle factor means. -/
theorem factor3_ne_zero (r : Fin 3 → Reactant) {p0 p1 : ℝ} (h0 : 0 < p0) (h1 : 0 ≤ p1)
    (h : factor3 r p0 p1 ≠ 0) :
    (r 2).specie.m ≤ lastEnergy3 r p0 p1 ∧ 0 < p1 ∧ 0 < momenta3 r p0 p1 2 ∧
    p0 ≤ p1 + momenta3 r p0 p1 2 ∧ p1 ≤ p0 + momenta3 r p0 p1 2 ∧ momenta3 r p0 p1 2 ≤ p0 + p1 := by
  unfold factor3 at h
  by_cases hE : lastEnergy3 r p0 p1 < (r 2).specie.m
  · rw [if_pos hE] at h; exact absurd rfl h
  rw [if_neg hE, if_neg h0.ne'] at h
  have hb : inBounds3 (momenta3 r p0 p1) ≠ 0 := by
    intro hz
    rw [hz] at h
    simp at h
  obtain ⟨a, b, c⟩ := (canClose3_iff _ (momenta3_nonneg r h0.le h1)).mp
    (C35_three_sound _ (momenta3_nonneg r h0.le h1) hb)
  refine ⟨not_lt.mp hE, ?_, ?_, a, b, c⟩
  · refine lt_of_le_of_ne h1 fun he => hb (C35_three_zero_momentum _ (Or.inr (Or.inl he.symm)))
  · exact lt_of_le_of_ne (momenta3_nonneg r h0.le h1 2) fun he =>
      hb (C35_three_zero_momentum _ (Or.inr (Or.inr he.symm)))

/-- A recoil strictly inside the limits gives a non-degenerate triangle. -/
theorem inBounds3_inside (r : Fin 3 → Reactant) {p0 p1 : ℝ} (h0 : 0 < p0) (h1 : 0 < p1)
    (a : (p0 - p1) ^ 2 < lastEnergy3 r p0 p1 ^ 2 - (r 2).specie.m ^ 2)
    (b : lastEnergy3 r p0 p1 ^ 2 - (r 2).specie.m ^ 2 < (p0 + p1) ^ 2) :
    inBounds3 (momenta3 r p0 p1) = 2 := by
  have q1 : |p0 - p1| < momenta3 r p0 p1 2 := by
    change _ < √_
    apply Real.lt_sqrt_of_sq_lt
    rwa [sq_abs]
  have q2 : momenta3 r p0 p1 2 < p0 + p1 := by
    change √_ < _
    rw [Real.sqrt_lt' (by linarith)]
    exact b
  obtain ⟨q3, q4⟩ := abs_lt.mp q1
  apply ((C35_three (momenta3 r p0 p1) ?_).2.1).mpr
  · exact ⟨show p0 < p1 + momenta3 r p0 p1 2 by linarith,
      show p1 < p0 + momenta3 r p0 p1 2 by linarith, q2⟩
  · intro i
    fin_cases i
    exacts [h0, h1, lt_of_le_of_lt (abs_nonneg _) q1]

/-- Strict triangle inequalities and a sufficient energy give a non-zero factor. -/
theorem factor3_ne_zero_of (r : Fin 3 → Reactant) {p0 p1 : ℝ} (h0 : 0 < p0) (h1 : 0 < p1)
    (hE : (r 2).specie.m ≤ lastEnergy3 r p0 p1)
    (a : (p0 - p1) ^ 2 < lastEnergy3 r p0 p1 ^ 2 - (r 2).specie.m ^ 2)
    (b : lastEnergy3 r p0 p1 ^ 2 - (r 2).specie.m ^ 2 < (p0 + p1) ^ 2) :
    factor3 r p0 p1 ≠ 0 := by
  unfold factor3
  rw [if_neg (not_lt.mpr hE), if_neg h0.ne']
  have hb := inBounds3_inside r h0 h1 a b
  rw [hb]
  have e0 : 0 < energy p0 (r 0).specie.m := lt_of_lt_of_le h0 (le_energy _ _)
  have e1 : 0 < energy p1 (r 1).specie.m := lt_of_lt_of_le h1 (le_energy _ _)
  split_ifs <;> positivity

theorem momenta3_last (r : Fin 3 → Reactant) (p0 p1 : ℝ) (hm : 0 ≤ (r 2).specie.m)
    (hE : (r 2).specie.m ≤ lastEnergy3 r p0 p1) :
    lastEnergy3 r p0 p1 ^ 2 = momenta3 r p0 p1 2 ^ 2 + (r 2).specie.m ^ 2 := by
  change _ = √(lastEnergy3 r p0 p1 ^ 2 - (r 2).specie.m ^ 2) ^ 2 + _
  rw [Real.sq_sqrt]
  · ring
  · have := pow_le_pow_left₀ hm hE 2; linarith

/-- The radicand of `p1_bounds_3` is non-negative when one mass is at least the sum of the others. -/
theorem bounds3_rad_nonneg {m0 m1 m2 p0 : ℝ} (h0 : 0 ≤ m0) (h1 : 0 ≤ m1) (h2 : 0 ≤ m2)
    (h : m1 + m2 ≤ m0 ∨ m0 + m1 ≤ m2) :
    0 ≤ (p0 ^ 2 + m0 ^ 2) * (m1 ^ 4 + (m2 ^ 2 - m0 ^ 2) ^ 2 - 2 * m1 ^ 2 * (m2 ^ 2 + m0 ^ 2)) := by
  have e : m1 ^ 4 + (m2 ^ 2 - m0 ^ 2) ^ 2 - 2 * m1 ^ 2 * (m2 ^ 2 + m0 ^ 2) =
      ((m0 - m2) ^ 2 - m1 ^ 2) * ((m0 + m2) ^ 2 - m1 ^ 2) := by ring
  rw [e]
  apply mul_nonneg (by positivity)
  rcases h with h | h
  · apply mul_nonneg <;> nlinarith
  · apply mul_nonneg <;> nlinarith

/-- `p1_bounds_3` for non-negative radicand. -/
theorem p1Bounds3_eq (m0 m1 m2 p0 s1 s2 : ℝ)
    (h : 0 ≤ (p0 ^ 2 + m0 ^ 2) * (m1 ^ 4 + (m2 ^ 2 - m0 ^ 2) ^ 2 - 2 * m1 ^ 2 * (m2 ^ 2 + m0 ^ 2))) :
    p1Bounds3 m0 m1 m2 p0 s1 s2 = (s1 * (p0 * (m2 ^ 2 - m1 ^ 2 - m0 ^ 2)) + s2 *
      √((p0 ^ 2 + m0 ^ 2) * (m1 ^ 4 + (m2 ^ 2 - m0 ^ 2) ^ 2 - 2 * m1 ^ 2 * (m2 ^ 2 + m0 ^ 2)))) /
      (2 * m0 ^ 2) := by
  unfold p1Bounds3
  simp only [if_neg (not_lt.mpr h)]

/-- Strictly between the limits of a decay the recoil is real and the triangle is not degenerate. -/
theorem decay3_inside (r : Fin 3 → Reactant) (max2 p0 p1 : ℝ) (st : ℝ × ℝ)
    (s0 : (r 0).side = -1) (s1 : (r 1).side = 1) (s2 : (r 2).side = 1)
    (hm0 : 0 < (r 0).specie.m) (hm1 : 0 ≤ (r 1).specie.m) (hm2 : 0 ≤ (r 2).specie.m)
    (hopen : (r 1).specie.m + (r 2).specie.m ≤ (r 0).specie.m)
    (h0 : 0 < p0) (h1 : 0 < p1)
    (g1 : (outerLimits3 (ctx3 r max2) p0 st).1.1 < p1) (g2 : p1 < (outerLimits3 (ctx3 r max2) p0 st).1.2) :
    (r 2).specie.m ≤ lastEnergy3 r p0 p1 ∧
    (p0 - p1) ^ 2 < lastEnergy3 r p0 p1 ^ 2 - (r 2).specie.m ^ 2 ∧
    lastEnergy3 r p0 p1 ^ 2 - (r 2).specie.m ^ 2 < (p0 + p1) ^ 2 := by
  have ht : (ctx3 r max2).type = 1 := by simp [ctx3, reactionTypeSum, s0, s1, s2]
  have ee : lastEnergy3 r p0 p1 = energy p0 (r 0).specie.m - energy p1 (r 1).specie.m := by
    unfold lastEnergy3
    rw [s0, s1, s2]; push_cast; ring
  have hR := bounds3_rad_nonneg (p0 := p0) hm0.le hm1 hm2 (Or.inl hopen)
  unfold outerLimits3 at g1 g2
  rw [ht] at g1 g2
  simp only [show ¬ (1 : ℤ) = -1 by decide, if_false] at g1 g2
  simp only [ctx3] at g1 g2
  rw [p1Bounds3_eq _ _ _ _ _ _ hR] at g1 g2
  set m0 := (r 0).specie.m
  set m1 := (r 1).specie.m
  set m2 := (r 2).specie.m
  have hW := energy_nonneg p0 m0
  have hWP := le_energy p0 m0
  have hpos : 0 < 2 * m0 ^ 2 := by positivity
  have er : energy p0 m0 ^ 2 * ((energy p0 m0 ^ 2 - p0 ^ 2 + m1 ^ 2 - m2 ^ 2) ^ 2 -
      4 * (energy p0 m0 ^ 2 - p0 ^ 2) * m1 ^ 2) = (p0 ^ 2 + m0 ^ 2) *
      (m1 ^ 4 + (m2 ^ 2 - m0 ^ 2) ^ 2 - 2 * m1 ^ 2 * (m2 ^ 2 + m0 ^ 2)) := by
    rw [energy_sq]; ring
  have es : energy p0 m0 ^ 2 - p0 ^ 2 = m0 ^ 2 := by rw [energy_sq]; ring
  obtain ⟨g3, g4⟩ := max_lt_iff.mp g1
  rw [div_lt_iff₀ hpos] at g3
  rw [← neg_div, div_lt_iff₀ hpos] at g4
  rw [lt_div_iff₀ hpos] at g2
  have hlt : p0 < energy p0 m0 := by
    apply (sq_lt_sq₀ h0.le hW).mp
    rw [energy_sq]; linarith [pow_pos hm0 2]
  obtain ⟨c1, c2⟩ := twoBody_roots_conv (W := energy p0 m0) (P := p0) (p := p1) (m := m1)
    (A := energy p0 m0 ^ 2 - p0 ^ 2 + m1 ^ 2 - m2 ^ 2)
    hW h0.le hlt h1.le (energy_nonneg p1 m1) (by rw [es]; nlinarith) (energy_sq p1 m1)
    (by rw [er]; exact hR)
    (by rw [er, es]; exact abs_lt.mpr ⟨by linarith, by linarith⟩)
    (by rw [er, es]; linarith)
  rw [es] at c1 c2
  have u1 := energy_sq p0 m0
  have u2 := energy_sq p1 m1
  have l1 : (p0 - p1) ^ 2 < (energy p0 m0 - energy p1 m1) ^ 2 - m2 ^ 2 := by linarith
  have l2 : (energy p0 m0 - energy p1 m1) ^ 2 - m2 ^ 2 < (p0 + p1) ^ 2 := by linarith
  have hpos2 : 0 ≤ energy p0 m0 - energy p1 m1 :=
    recoil_nonneg hW h0.le hWP u1 (pow_le_pow_left₀ hm1 (by linarith) 2) c1 l1
  refine ⟨?_, ?_, ?_⟩
  · rw [ee]
    apply (sq_le_sq₀ hm2 hpos2).mp
    linarith [sq_nonneg (p0 - p1)]
  · rw [ee]; exact l1
  · rw [ee]; exact l2

/-- **C65, decays.** For a moving massive particle decaying to two, the limits are exact: nothing with a
non-zero integrand is outside, and strictly inside everything is allowed. -/
theorem C65_decay (r : Fin 3 → Reactant) (max2 p0 p1 : ℝ) (st : ℝ × ℝ)
    (s0 : (r 0).side = -1) (s1 : (r 1).side = 1) (s2 : (r 2).side = 1)
    (hm0 : 0 < (r 0).specie.m) (hm1 : 0 ≤ (r 1).specie.m) (hm2 : 0 ≤ (r 2).specie.m)
    (hopen : (r 1).specie.m + (r 2).specie.m ≤ (r 0).specie.m)
    (h0 : 0 < p0) (h1 : 0 < p1) :
    (outerLimits3 (ctx3 r max2) p0 st).2 = true ∧
    (factor3 r p0 p1 ≠ 0 → (outerLimits3 (ctx3 r max2) p0 st).1.1 ≤ p1 ∧
      p1 ≤ (outerLimits3 (ctx3 r max2) p0 st).1.2) ∧
    ((outerLimits3 (ctx3 r max2) p0 st).1.1 < p1 → p1 < (outerLimits3 (ctx3 r max2) p0 st).1.2 →
      factor3 r p0 p1 ≠ 0) := by
  have ht : (ctx3 r max2).type = 1 := by simp [ctx3, reactionTypeSum, s0, s1, s2]
  have ee : lastEnergy3 r p0 p1 = energy p0 (r 0).specie.m - energy p1 (r 1).specie.m := by
    unfold lastEnergy3
    rw [s0, s1, s2]; push_cast; ring
  have hR := bounds3_rad_nonneg (p0 := p0) hm0.le hm1 hm2 (Or.inl hopen)
  unfold outerLimits3
  rw [ht]
  simp only [show ¬ (1 : ℤ) = -1 by decide, if_false]
  refine ⟨trivial, ?_, ?_⟩
  swap
  · intro g1 g2
    obtain ⟨x, y, z⟩ := decay3_inside r max2 p0 p1 st s0 s1 s2 hm0 hm1 hm2 hopen h0 h1
      (by unfold outerLimits3; rw [ht]; exact g1) (by unfold outerLimits3; rw [ht]; exact g2)
    exact factor3_ne_zero_of r h0 h1 x y z
  simp only [ctx3]
  rw [p1Bounds3_eq _ _ _ _ _ _ hR, p1Bounds3_eq _ _ _ _ _ _ hR]
  set m0 := (r 0).specie.m
  set m1 := (r 1).specie.m
  set m2 := (r 2).specie.m
  have hW := energy_nonneg p0 m0
  have hWP := le_energy p0 m0
  have hpos : 0 < 2 * m0 ^ 2 := by positivity
  have er : energy p0 m0 ^ 2 * ((energy p0 m0 ^ 2 - p0 ^ 2 + m1 ^ 2 - m2 ^ 2) ^ 2 -
      4 * (energy p0 m0 ^ 2 - p0 ^ 2) * m1 ^ 2) = (p0 ^ 2 + m0 ^ 2) *
      (m1 ^ 4 + (m2 ^ 2 - m0 ^ 2) ^ 2 - 2 * m1 ^ 2 * (m2 ^ 2 + m0 ^ 2)) := by
    rw [energy_sq]; ring
  have es : energy p0 m0 ^ 2 - p0 ^ 2 = m0 ^ 2 := by rw [energy_sq]; ring
  intro hf
  obtain ⟨hE, -, -, t1, t2, t3⟩ := factor3_ne_zero r h0 h1.le hf
  obtain ⟨c1, c2⟩ := cos_decay (P := p0) (W := energy p0 m0)
    (show energy p1 m1 + lastEnergy3 r p0 p1 = _ by rw [ee]; ring) (energy_sq p1 m1)
    (momenta3_last r p0 p1 hm2 hE) (momenta3_nonneg r h0.le h1.le 2) t1 t2 t3
  obtain ⟨-, r1, r2⟩ := twoBody_roots hW h0.le hWP h1.le (energy_nonneg p1 m1)
    (energy_sq p1 m1) c1 c2
  rw [er] at r1 r2
  rw [es] at r1 r2
  obtain ⟨r3, r4⟩ := abs_le.mp r1
  refine ⟨max_le ?_ ?_, ?_⟩
  · rw [div_le_iff₀ hpos]; linarith
  · rw [← neg_div, div_le_iff₀ hpos]; linarith
  · rw [le_div_iff₀ hpos]; linarith

/-- The limit from the largest momentum of the product. -/
theorem p1Bounds4_le (m0 m1 m2 p0 p1 max2 : ℝ) (h1 : 0 < p1)
    (h : energy p0 m0 + energy p1 m1 ≤ energy max2 m2) :
    p1Bounds4 m0 m1 m2 p0 max2 ≠ -1 ∧ p1 ≤ p1Bounds4 m0 m1 m2 p0 max2 := by
  have x : energy p1 m1 ≤ energy max2 m2 - energy p0 m0 := by linarith
  have y := pow_le_pow_left₀ (energy_nonneg p1 m1) x 2
  rw [energy_sq] at y
  have hn : ¬ (energy max2 m2 - energy p0 m0 ≤ 0 ∨
      (energy max2 m2 - energy p0 m0) ^ 2 - m1 ^ 2 ≤ 0) := by
    push Not
    exact ⟨by linarith [le_energy p1 m1], by linarith [pow_pos h1 2]⟩
  unfold p1Bounds4
  simp only [if_neg hn]
  exact ⟨by linarith [Real.sqrt_nonneg ((energy max2 m2 - energy p0 m0) ^ 2 - m1 ^ 2)],
    le_sqrt_of_energy_le x⟩

theorem le_p1Bounds4 (m0 m1 m2 p0 p1 max2 : ℝ) (h1 : 0 < p1)
    (h : p1 ≤ p1Bounds4 m0 m1 m2 p0 max2) :
    energy p0 m0 + energy p1 m1 ≤ energy max2 m2 := by
  unfold p1Bounds4 at h
  dsimp only at h
  split_ifs at h with hn
  · linarith
  · push Not at hn
    have y := pow_le_pow_left₀ h1.le h 2
    rw [Real.sq_sqrt hn.2.le] at y
    have : energy p1 m1 ≤ energy max2 m2 - energy p0 m0 := by
      apply (sq_le_sq₀ (energy_nonneg _ _) hn.1.le).mp
      rw [energy_sq]; linarith
    linarith

/-- A bound on the last momentum is a bound on the last energy. -/
theorem last3_le_iff (r : Fin 3 → Reactant) (p0 p1 max2 : ℝ) (hm : 0 ≤ (r 2).specie.m) (hmax : 0 ≤ max2)
    (h0 : 0 ≤ p0) (h1 : 0 ≤ p1)
    (hE : (r 2).specie.m ≤ lastEnergy3 r p0 p1) :
    momenta3 r p0 p1 2 ≤ max2 ↔ lastEnergy3 r p0 p1 ≤ energy max2 (r 2).specie.m := by
  rw [← sq_le_sq₀ (momenta3_nonneg r h0 h1 2) hmax, ← sq_le_sq₀ (hm.trans hE) (energy_nonneg _ _),
    momenta3_last r p0 p1 hm hE, energy_sq]
  constructor <;> intro h <;> linarith

/-- The limits of a creation by a massive particle; strictly inside the triangle is not degenerate. -/
theorem creation3_limits (r : Fin 3 → Reactant) (max2 p0 p1 : ℝ) (st : ℝ × ℝ)
    (s0 : (r 0).side = -1) (s1 : (r 1).side = -1) (s2 : (r 2).side = 1)
    (hm0 : 0 < (r 0).specie.m) (hm1 : 0 ≤ (r 1).specie.m) (hm2 : 0 ≤ (r 2).specie.m)
    (hopen : (r 0).specie.m + (r 1).specie.m ≤ (r 2).specie.m)
    (hmax : 0 ≤ max2) (h0 : 0 < p0) (h1 : 0 < p1) :
    (factor3 r p0 p1 ≠ 0 → momenta3 r p0 p1 2 ≤ max2 →
      (outerLimits3 (ctx3 r max2) p0 st).1.1 ≤ p1 ∧ p1 ≤ (outerLimits3 (ctx3 r max2) p0 st).1.2 ∧
      ((outerLimits3 (ctx3 r max2) p0 st).2 = true ∨
        (outerLimits3 (ctx3 r max2) p0 st).1.1 = p1 ∧
        (outerLimits3 (ctx3 r max2) p0 st).1.2 = p1)) ∧
    ((outerLimits3 (ctx3 r max2) p0 st).2 = true →
      (outerLimits3 (ctx3 r max2) p0 st).1.1 < p1 → p1 < (outerLimits3 (ctx3 r max2) p0 st).1.2 →
      ((r 2).specie.m ≤ lastEnergy3 r p0 p1 ∧
        (p0 - p1) ^ 2 < lastEnergy3 r p0 p1 ^ 2 - (r 2).specie.m ^ 2 ∧
        lastEnergy3 r p0 p1 ^ 2 - (r 2).specie.m ^ 2 < (p0 + p1) ^ 2) ∧ momenta3 r p0 p1 2 ≤ max2) := by
  have ht : (ctx3 r max2).type = -1 := by simp [ctx3, reactionTypeSum, s0, s1, s2]
  have ee : lastEnergy3 r p0 p1 = energy p0 (r 0).specie.m + energy p1 (r 1).specie.m := by
    unfold lastEnergy3
    rw [s0, s1, s2]; push_cast; ring
  have hR := bounds3_rad_nonneg (p0 := p0) hm0.le hm1 hm2 (Or.inr hopen)
  unfold outerLimits3
  rw [ht]
  simp only [if_true]
  simp only [if_neg (show ¬ (ctx3 r max2).m0 = 0 from hm0.ne')]
  change (_ → _ → _ ∧ _ ∧ _) ∧ _
  rw [show (ctx3 r max2).m0 = (r 0).specie.m from rfl, show (ctx3 r max2).m1 = (r 1).specie.m from rfl,
    show (ctx3 r max2).m2 = (r 2).specie.m from rfl, show (ctx3 r max2).max2 = max2 from rfl]
  rw [p1Bounds3_eq _ _ _ _ _ _ hR, p1Bounds3_eq _ _ _ _ _ _ hR]
  set m0 := (r 0).specie.m
  set m1 := (r 1).specie.m
  set m2 := (r 2).specie.m
  have hW := energy_nonneg p0 m0
  have hWP := le_energy p0 m0
  have hpos : 0 < 2 * m0 ^ 2 := by positivity
  have es : energy p0 m0 ^ 2 - p0 ^ 2 = m0 ^ 2 := by rw [energy_sq]; ring
  have er : energy p0 m0 ^ 2 * ((m2 ^ 2 - m0 ^ 2 - m1 ^ 2) ^ 2 -
      4 * (energy p0 m0 ^ 2 - p0 ^ 2) * m1 ^ 2) = (p0 ^ 2 + m0 ^ 2) *
      (m1 ^ 4 + (m2 ^ 2 - m0 ^ 2) ^ 2 - 2 * m1 ^ 2 * (m2 ^ 2 + m0 ^ 2)) := by
    rw [energy_sq]; ring
  generalize hr : √((p0 ^ 2 + m0 ^ 2) *
      (m1 ^ 4 + (m2 ^ 2 - m0 ^ 2) ^ 2 - 2 * m1 ^ 2 * (m2 ^ 2 + m0 ^ 2))) = R at *
  constructor
  · intro hf hp2
    obtain ⟨hE, -, -, t1, t2, t3⟩ := factor3_ne_zero r h0 h1.le hf
    have hE2 := (last3_le_iff r p0 p1 max2 hm2 hmax h0.le h1.le hE).mp hp2
    rw [ee] at hE2
    obtain ⟨b1, b2⟩ := p1Bounds4_le m0 m1 m2 p0 p1 max2 h1 hE2
    obtain ⟨c1, c2⟩ := cos_creation (P := p0) (W := energy p0 m0) ee (energy_sq p1 m1)
      (energy_sq p0 m0) (momenta3_last r p0 p1 hm2 hE) (momenta3_nonneg r h0.le h1.le 2) t1 t2 t3
    obtain ⟨-, r1, r2⟩ := twoBody_roots hW h0.le hWP h1.le (energy_nonneg p1 m1)
      (energy_sq p1 m1) c1 c2
    rw [er, hr, es] at r1 r2
    obtain ⟨r3, r4⟩ := abs_le.mp r1
    rw [if_neg b1]
    have k1 : max ((-1 * (p0 * (m2 ^ 2 - m1 ^ 2 - m0 ^ 2)) + 1 * R) / (2 * m0 ^ 2))
        (-((-1 * (p0 * (m2 ^ 2 - m1 ^ 2 - m0 ^ 2)) + 1 * R) / (2 * m0 ^ 2))) ≤ p1 := by
      refine max_le ?_ ?_
      · rw [div_le_iff₀ hpos]; linarith
      · rw [← neg_div, div_le_iff₀ hpos]; linarith
    have k2 : p1 ≤ min ((1 * (p0 * (m2 ^ 2 - m1 ^ 2 - m0 ^ 2)) + 1 * R) / (2 * m0 ^ 2))
        (p1Bounds4 m0 m1 m2 p0 max2) := by
      refine le_min ?_ b2
      rw [le_div_iff₀ hpos]; linarith
    split_ifs with hc
    · exact ⟨k1, k2, Or.inr ⟨le_antisymm k1 (k2.trans hc), le_antisymm (hc.trans k1) k2⟩⟩
    · exact ⟨k1, k2, Or.inl rfl⟩
  · split_ifs with hb hc
    · intro h; cases h
    · intro h; cases h
    · intro _ g1 g2
      obtain ⟨g3, g4⟩ := max_lt_iff.mp g1
      obtain ⟨g5, g6⟩ := lt_min_iff.mp g2
      rw [div_lt_iff₀ hpos] at g3
      rw [← neg_div, div_lt_iff₀ hpos] at g4
      rw [lt_div_iff₀ hpos] at g5
      have hlt : p0 < energy p0 m0 := by
        apply (sq_lt_sq₀ h0.le hW).mp
        rw [energy_sq]; linarith [pow_pos hm0 2]
      have hA : 0 ≤ m2 ^ 2 - m0 ^ 2 - m1 ^ 2 := by
        have := pow_le_pow_left₀ (by linarith) hopen 2
        have := mul_nonneg hm0.le hm1
        nlinarith
      obtain ⟨c1, c2⟩ := twoBody_roots_conv (W := energy p0 m0) (P := p0) (p := p1) (m := m1)
        (A := m2 ^ 2 - m0 ^ 2 - m1 ^ 2)
        hW h0.le hlt h1.le (energy_nonneg p1 m1) hA (energy_sq p1 m1)
        (by rw [er]; exact hR)
        (by rw [er, hr, es]; exact abs_lt.mpr ⟨by linarith, by linarith⟩)
        (by rw [er, hr, es]; linarith)
      have u1 := energy_sq p0 m0
      have u2 := energy_sq p1 m1
      have l1 : (p0 - p1) ^ 2 < (energy p0 m0 + energy p1 m1) ^ 2 - m2 ^ 2 := by linarith
      have l2 : (energy p0 m0 + energy p1 m1) ^ 2 - m2 ^ 2 < (p0 + p1) ^ 2 := by linarith
      have hE : m2 ≤ lastEnergy3 r p0 p1 := by
        rw [ee]
        apply (sq_le_sq₀ hm2 (add_nonneg hW (energy_nonneg p1 m1))).mp
        linarith [sq_nonneg (p0 - p1)]
      refine ⟨⟨hE, by rw [ee]; exact l1, by rw [ee]; exact l2⟩, ?_⟩
      rw [last3_le_iff r p0 p1 max2 hm2 hmax h0.le h1.le hE, ee]
      exact le_p1Bounds4 m0 m1 m2 p0 p1 max2 h1 g6.le

/-- **C65, creation by a massive particle.** For `0 + 1 → 2` the limits contain exactly the allowed momenta with
third momentum up to `max_2`. -/
theorem C65_creation (r : Fin 3 → Reactant) (max2 p0 p1 : ℝ) (st : ℝ × ℝ)
    (s0 : (r 0).side = -1) (s1 : (r 1).side = -1) (s2 : (r 2).side = 1)
    (hm0 : 0 < (r 0).specie.m) (hm1 : 0 ≤ (r 1).specie.m) (hm2 : 0 ≤ (r 2).specie.m)
    (hopen : (r 0).specie.m + (r 1).specie.m ≤ (r 2).specie.m)
    (hmax : 0 ≤ max2) (h0 : 0 < p0) (h1 : 0 < p1) :
    (factor3 r p0 p1 ≠ 0 → momenta3 r p0 p1 2 ≤ max2 →
      (outerLimits3 (ctx3 r max2) p0 st).1.1 ≤ p1 ∧ p1 ≤ (outerLimits3 (ctx3 r max2) p0 st).1.2 ∧
      ((outerLimits3 (ctx3 r max2) p0 st).2 = true ∨
        (outerLimits3 (ctx3 r max2) p0 st).1.1 = p1 ∧
        (outerLimits3 (ctx3 r max2) p0 st).1.2 = p1)) ∧
    ((outerLimits3 (ctx3 r max2) p0 st).2 = true →
      (outerLimits3 (ctx3 r max2) p0 st).1.1 < p1 → p1 < (outerLimits3 (ctx3 r max2) p0 st).1.2 →
      factor3 r p0 p1 ≠ 0 ∧ momenta3 r p0 p1 2 ≤ max2) := by
  obtain ⟨a, b⟩ := creation3_limits r max2 p0 p1 st s0 s1 s2 hm0 hm1 hm2 hopen hmax h0 h1
  refine ⟨a, fun h g1 g2 => ?_⟩
  obtain ⟨⟨x, y, z⟩, w⟩ := b h g1 g2
  exact ⟨factor3_ne_zero_of r h0 h1 x y z, w⟩

/-- The limits of a creation by a massless particle. -/
theorem creation3_limits_massless (r : Fin 3 → Reactant) (max2 p0 p1 : ℝ) (st : ℝ × ℝ)
    (s0 : (r 0).side = -1) (s1 : (r 1).side = -1) (s2 : (r 2).side = 1)
    (hm0 : (r 0).specie.m = 0) (hm1 : 0 ≤ (r 1).specie.m) (hm2 : 0 ≤ (r 2).specie.m)
    (hopen : (r 1).specie.m < (r 2).specie.m)
    (hmax : 0 ≤ max2) (h0 : 0 < p0) (h1 : 0 < p1) :
    (factor3 r p0 p1 ≠ 0 → momenta3 r p0 p1 2 ≤ max2 →
      (outerLimits3 (ctx3 r max2) p0 st).1.1 ≤ p1 ∧ p1 ≤ (outerLimits3 (ctx3 r max2) p0 st).1.2 ∧
      ((outerLimits3 (ctx3 r max2) p0 st).2 = true ∨
        (outerLimits3 (ctx3 r max2) p0 st).1.1 = p1 ∧
        (outerLimits3 (ctx3 r max2) p0 st).1.2 = p1)) ∧
    ((outerLimits3 (ctx3 r max2) p0 st).2 = true →
      (outerLimits3 (ctx3 r max2) p0 st).1.1 < p1 → p1 < (outerLimits3 (ctx3 r max2) p0 st).1.2 →
      ((r 2).specie.m ≤ lastEnergy3 r p0 p1 ∧
        (p0 - p1) ^ 2 < lastEnergy3 r p0 p1 ^ 2 - (r 2).specie.m ^ 2 ∧
        lastEnergy3 r p0 p1 ^ 2 - (r 2).specie.m ^ 2 < (p0 + p1) ^ 2) ∧ momenta3 r p0 p1 2 ≤ max2) := by
  have ht : (ctx3 r max2).type = -1 := by simp [ctx3, reactionTypeSum, s0, s1, s2]
  have ee : lastEnergy3 r p0 p1 = energy p0 (r 0).specie.m + energy p1 (r 1).specie.m := by
    unfold lastEnergy3
    rw [s0, s1, s2]; push_cast; ring
  unfold outerLimits3
  rw [ht]
  simp only [if_true]
  simp only [if_pos (show (ctx3 r max2).m0 = 0 from hm0)]
  change (_ → _ → _ ∧ _ ∧ _) ∧ _
  rw [show (ctx3 r max2).m0 = (r 0).specie.m from rfl, show (ctx3 r max2).m1 = (r 1).specie.m from rfl,
    show (ctx3 r max2).m2 = (r 2).specie.m from rfl, show (ctx3 r max2).max2 = max2 from rfl]
  rw [hm0] at ee ⊢
  set m1 := (r 1).specie.m
  set m2 := (r 2).specie.m
  have e0 : energy p0 0 = p0 := by unfold energy; simp [Real.sqrt_mul_self h0.le]
  have hA : 0 < m2 ^ 2 - 0 ^ 2 - m1 ^ 2 := by
    have := pow_lt_pow_left₀ hopen hm1 two_ne_zero
    linarith
  have hb2 : p1Bounds2 0 m1 m2 p0 =
      -(((m2 ^ 2 - 0 ^ 2 - m1 ^ 2) ^ 2 / 4 - p0 ^ 2 * m1 ^ 2) /
        ((m2 ^ 2 - 0 ^ 2 - m1 ^ 2) * p0)) := by
    unfold p1Bounds2
    rw [if_neg (by rintro ⟨-, h⟩; exact h0.ne' h)]
    have n1 : m1 ^ 2 - m2 ^ 2 ≠ 0 := by linarith
    have n2 : m2 ^ 2 - 0 ^ 2 - m1 ^ 2 ≠ 0 := hA.ne'
    field_simp
    ring
  have hApos : 0 < (m2 ^ 2 - 0 ^ 2 - m1 ^ 2) * p0 := mul_pos hA h0
  rw [hb2, neg_neg, max_comm]
  constructor
  · intro hf hp2
    obtain ⟨hE, -, -, t1, t2, t3⟩ := factor3_ne_zero r h0 h1.le hf
    have hE2 := (last3_le_iff r p0 p1 max2 hm2 hmax h0.le h1.le hE).mp hp2
    rw [ee] at hE2
    obtain ⟨b1, b2⟩ := p1Bounds4_le 0 m1 m2 p0 p1 max2 h1 hE2
    obtain ⟨c1, c2⟩ := cos_creation (P := p0) (W := energy p0 0) ee (energy_sq p1 m1)
      (energy_sq p0 0) (momenta3_last r p0 p1 hm2 hE) (momenta3_nonneg r h0.le h1.le 2) t1 t2 t3
    obtain ⟨-, q1, q2⟩ := twoBody (energy_nonneg p0 0) h0.le (le_energy p0 0) h1.le
      (energy_nonneg p1 m1) (energy_sq p1 m1) c1 c2
    rw [e0] at q1 q2
    rw [if_neg b1]
    have k1 : max (((m2 ^ 2 - 0 ^ 2 - m1 ^ 2) ^ 2 / 4 - p0 ^ 2 * m1 ^ 2) /
        ((m2 ^ 2 - 0 ^ 2 - m1 ^ 2) * p0))
        (-(((m2 ^ 2 - 0 ^ 2 - m1 ^ 2) ^ 2 / 4 - p0 ^ 2 * m1 ^ 2) /
        ((m2 ^ 2 - 0 ^ 2 - m1 ^ 2) * p0))) ≤ p1 := by
      refine max_le ?_ ?_
      · rw [div_le_iff₀ hApos]; linarith
      · rw [← neg_div, div_le_iff₀ hApos]; linarith
    split_ifs with hc
    · exact ⟨k1, b2, Or.inr ⟨le_antisymm k1 (b2.trans hc), le_antisymm (hc.trans k1) b2⟩⟩
    · exact ⟨k1, b2, Or.inl rfl⟩
  · split_ifs with hb hc
    · intro h; cases h
    · intro h; cases h
    · intro _ g1 g2
      obtain ⟨g3, g4⟩ := max_lt_iff.mp g1
      rw [div_lt_iff₀ hApos] at g3
      rw [← neg_div, div_lt_iff₀ hApos] at g4
      obtain ⟨c1, c2⟩ := twoBody_conv (W := energy p0 0) (P := p0) (p := p1) (m := m1)
        (A := m2 ^ 2 - 0 ^ 2 - m1 ^ 2)
        (energy_nonneg p0 0) h0.le h1.le (energy_nonneg p1 m1) hA.le (energy_sq p1 m1)
        (by rw [e0]; linarith) (by rw [e0]; linarith)
      rw [e0] at c1 c2 ee
      have u2 := energy_sq p1 m1
      have l1 : (p0 - p1) ^ 2 < (p0 + energy p1 m1) ^ 2 - m2 ^ 2 := by linarith
      have l2 : (p0 + energy p1 m1) ^ 2 - m2 ^ 2 < (p0 + p1) ^ 2 := by linarith
      have hE : m2 ≤ lastEnergy3 r p0 p1 := by
        rw [ee]
        apply (sq_le_sq₀ hm2 (add_nonneg h0.le (energy_nonneg p1 m1))).mp
        linarith [sq_nonneg (p0 - p1)]
      refine ⟨⟨hE, by rw [ee]; exact l1, by rw [ee]; exact l2⟩, ?_⟩
      rw [last3_le_iff r p0 p1 max2 hm2 hmax h0.le h1.le hE, ee]
      have := le_p1Bounds4 0 m1 m2 p0 p1 max2 h1 g2.le
      rwa [e0] at this

/-- **C65, creation by a massless particle.** Same with `p1_bounds_2` as the lower limit. -/
theorem C65_creation_massless (r : Fin 3 → Reactant) (max2 p0 p1 : ℝ) (st : ℝ × ℝ)
    (s0 : (r 0).side = -1) (s1 : (r 1).side = -1) (s2 : (r 2).side = 1)
    (hm0 : (r 0).specie.m = 0) (hm1 : 0 ≤ (r 1).specie.m) (hm2 : 0 ≤ (r 2).specie.m)
    (hopen : (r 1).specie.m < (r 2).specie.m)
    (hmax : 0 ≤ max2) (h0 : 0 < p0) (h1 : 0 < p1) :
    (factor3 r p0 p1 ≠ 0 → momenta3 r p0 p1 2 ≤ max2 →
      (outerLimits3 (ctx3 r max2) p0 st).1.1 ≤ p1 ∧ p1 ≤ (outerLimits3 (ctx3 r max2) p0 st).1.2 ∧
      ((outerLimits3 (ctx3 r max2) p0 st).2 = true ∨
        (outerLimits3 (ctx3 r max2) p0 st).1.1 = p1 ∧
        (outerLimits3 (ctx3 r max2) p0 st).1.2 = p1)) ∧
    ((outerLimits3 (ctx3 r max2) p0 st).2 = true →
      (outerLimits3 (ctx3 r max2) p0 st).1.1 < p1 → p1 < (outerLimits3 (ctx3 r max2) p0 st).1.2 →
      factor3 r p0 p1 ≠ 0 ∧ momenta3 r p0 p1 2 ≤ max2) := by
  obtain ⟨a, b⟩ := creation3_limits_massless r max2 p0 p1 st s0 s1 s2 hm0 hm1 hm2 hopen hmax h0 h1
  refine ⟨a, fun h g1 g2 => ?_⟩
  obtain ⟨⟨x, y, z⟩, w⟩ := b h g1 g2
  exact ⟨factor3_ne_zero_of r h0 h1 x y z, w⟩

/-- **C65, at rest.** For `p0 = 0` the code evaluates the integrand at the only momentum compatible with
conservation, in decays and creations alike: the recoiling particle then has the same momentum. -/
theorem C65_rest (r : Fin 3 → Reactant) (s0 : (r 0).side = -1) (s2 : (r 2).side = 1)
    (hm0 : 0 < (r 0).specie.m) (hm1 : 0 ≤ (r 1).specie.m) (hm2 : 0 ≤ (r 2).specie.m)
    (h : (r 1).side = 1 ∧ (r 1).specie.m + (r 2).specie.m ≤ (r 0).specie.m ∨
      (r 1).side = -1 ∧ (r 0).specie.m + (r 1).specie.m ≤ (r 2).specie.m) (p1 : ℝ) (h1 : 0 ≤ p1) :
    (p1 = p1Bounds1 (r 0).specie.m (r 1).specie.m (r 2).specie.m ↔
      lastEnergy3 r 0 p1 = energy p1 (r 2).specie.m) := by
  have e0 : energy 0 (r 0).specie.m = (r 0).specie.m := by
    unfold energy; simp [Real.sqrt_mul_self hm0.le]
  unfold p1Bounds1
  rw [if_neg hm0.ne']
  have u1 := energy_sq p1 (r 1).specie.m
  have u2 := energy_sq p1 (r 2).specie.m
  have v1 := energy_nonneg p1 (r 1).specie.m
  have v2 := energy_nonneg p1 (r 2).specie.m
  have hl : lastEnergy3 r 0 p1 = (r 0).specie.m - (r 1).side * energy p1 (r 1).specie.m := by
    unfold lastEnergy3
    rw [s0, s2, e0]; push_cast; ring
  rw [hl]
  generalize energy p1 (r 1).specie.m = E1 at *
  generalize energy p1 (r 2).specie.m = E2 at *
  generalize (r 0).specie.m = m0 at *
  generalize (r 1).specie.m = m1 at *
  generalize (r 2).specie.m = m2 at *
  have key : (m0 ^ 2 - m1 ^ 2 - m2 ^ 2) ^ 2 - 4 * m1 ^ 2 * m2 ^ 2 =
      (m0 ^ 2 - (m1 + m2) ^ 2) * (m0 ^ 2 - (m1 - m2) ^ 2) := by ring
  have hrad : 0 ≤ (m0 ^ 2 - m1 ^ 2 - m2 ^ 2) ^ 2 - 4 * m1 ^ 2 * m2 ^ 2 := by
    rw [key]
    rcases h with ⟨-, h⟩ | ⟨-, h⟩
    · apply mul_nonneg <;> nlinarith
    · apply mul_nonneg_of_nonpos_of_nonpos <;> nlinarith
  have hiff : p1 = √((m0 ^ 2 - m1 ^ 2 - m2 ^ 2) ^ 2 - 4 * m1 ^ 2 * m2 ^ 2) / (2 * m0) ↔
      (2 * m0 * E1) ^ 2 = (m0 ^ 2 + m1 ^ 2 - m2 ^ 2) ^ 2 := by
    rw [eq_div_iff (by positivity), eq_comm, Real.sqrt_eq_iff_mul_self_eq hrad (by positivity)]
    constructor <;> intro hh <;> linear_combination 4 * m0 ^ 2 * u1 - hh
  rw [hiff]
  rcases h with ⟨hs, ho⟩ | ⟨hs, ho⟩ <;> rw [hs]
  · constructor
    · intro hh
      have : 2 * m0 * E1 = m0 ^ 2 + m1 ^ 2 - m2 ^ 2 :=
        (sq_eq_sq₀ (by positivity) (by nlinarith)).mp hh
      have hpos : 0 ≤ m0 - E1 := by
        have : 0 ≤ 2 * m0 * (m0 - E1) := by nlinarith
        by_contra hc
        push Not at hc
        nlinarith
      push_cast
      rw [one_mul]
      refine (sq_eq_sq₀ hpos v2).mp ?_
      linear_combination u1 - u2 - this
    · intro hh
      push_cast at hh
      have : 2 * m0 * E1 = m0 ^ 2 + m1 ^ 2 - m2 ^ 2 := by
        rw [← hh] at u2
        linear_combination u1 - u2
      rw [this]
  · constructor
    · intro hh
      have : 2 * m0 * E1 = m2 ^ 2 - m0 ^ 2 - m1 ^ 2 := by
        refine (sq_eq_sq₀ (by positivity) (by nlinarith [mul_nonneg hm0.le hm1])).mp ?_
        rw [hh]; ring
      push_cast
      refine (sq_eq_sq₀ (by linarith) v2).mp ?_
      linear_combination u1 - u2 + this
    · intro hh
      push_cast at hh
      have : 2 * m0 * E1 = m2 ^ 2 - m0 ^ 2 - m1 ^ 2 := by
        rw [← hh] at u2
        linear_combination u2 - u1
      rw [this]; ring

/-! ### Concrete instances -/

theorem energy_massless (p : ℝ) (h : 0 ≤ p) : energy p 0 = p := by
  unfold energy; simp [Real.sqrt_mul_self h]

theorem energy_rest (m : ℝ) (h : 0 ≤ m) : energy 0 m = m := by
  unfold energy; simp [Real.sqrt_mul_self h]

/-- An integrand with constant matrix element 1 and the `F_f_vacuum_decay` kind is `-1` where allowed. -/
theorem integrand_demo (r : Fin 4 → Reactant) (p0 p1 p2 : ℝ)
    (hq : ∀ i, (r i).specie.inEq = true) (hm1 : (r 1).specie.m = 0) (hm2 : (r 2).specie.m = 0)
    (E3 p3 : ℝ) (he : lastEnergy4 r p0 p1 p2 = E3) (hm : (r 3).specie.m ≤ E3)
    (hp : E3 ^ 2 - (r 3).specie.m ^ 2 = p3 ^ 2) (h0 : 0 ≤ p0) (h1 : 0 ≤ p1) (h2 : 0 ≤ p2) (h3 : 0 ≤ p3)
    (t : p0 ≤ p1 + p2 + p3 ∧ p1 ≤ p0 + p2 + p3 ∧ p2 ≤ p0 + p1 + p3 ∧ p3 ≤ p0 + p1 + p2) :
    integrandFull4 p0 p1 p2 r [⟨id, 0, 0, 1⟩] 5 = .ok (-1) := by
  have hE : (r 3).specie.m ≤ lastEnergy4 r p0 p1 p2 := by rw [he]; exact hm
  have hb : inBounds4 (momenta4 r p0 p1 p2) (energies4 r p0 p1 p2) fun i => (r i).specie.m := by
    rw [C35_four _ _ _ (momenta4_nonneg r h0 h1 h2), canClose4_iff _ (momenta4_nonneg r h0 h1 h2)]
    refine ⟨hE, ?_⟩
    have e3 : momenta4 r p0 p1 p2 3 = p3 := by
      change √(lastEnergy4 r p0 p1 p2 ^ 2 - (r 3).specie.m ^ 2) = p3
      rw [he, hp, Real.sqrt_sq h3]
    rw [e3]
    exact t
  unfold integrandFull4
  rw [if_neg (not_lt.mpr hE)]
  simp [hb, jacobian4, hm1, hm2, kernel4, occAt, distributionInterpolation, hq, kindFactor,
    Kind.ofInt, bind, Except.bind]

/-- A decay at rest, a scattering and a creation that satisfy the hypotheses of C64. -/
example :
    integrandFull4 0 1 1 ![⟨eqSpecies 1 4 1, -1⟩, ⟨eqSpecies 1 0 1, 1⟩, ⟨eqSpecies 1 0 1, 1⟩,
      ⟨eqSpecies 1 0 1, 1⟩] [⟨id, 0, 0, 1⟩] 5 = .ok (-1) ∧
    integrandFull4 1 2 2 ![⟨eqSpecies 1 0 1, -1⟩, ⟨eqSpecies 1 0 1, -1⟩, ⟨eqSpecies 1 0 1, 1⟩,
      ⟨eqSpecies 1 0 1, 1⟩] [⟨id, 0, 0, 1⟩] 5 = .ok (-1) ∧
    integrandFull4 1 1 1 ![⟨eqSpecies 1 0 1, -1⟩, ⟨eqSpecies 1 0 1, -1⟩, ⟨eqSpecies 1 0 1, -1⟩,
      ⟨eqSpecies 1 3 1, 1⟩] [⟨id, 0, 0, 1⟩] 5 = .ok (-1) := by
  refine ⟨?_, ?_, ?_⟩
  · have he : lastEnergy4 ![⟨eqSpecies 1 4 1, -1⟩, ⟨eqSpecies 1 0 1, 1⟩, ⟨eqSpecies 1 0 1, 1⟩,
        ⟨eqSpecies 1 0 1, 1⟩] 0 1 1 = 2 := by
      simp only [lastEnergy4, Matrix.cons_val, eqSpecies]
      rw [energy_rest 4 (by norm_num), energy_massless 1 (by norm_num)]; norm_num
    refine integrand_demo _ _ _ _ (by intro i; fin_cases i <;> rfl) rfl rfl 2 2 he ?_ ?_ ?_ ?_ ?_ ?_ ?_ <;>
      (try simp only [Matrix.cons_val, eqSpecies]) <;> norm_num
  · have he : lastEnergy4 ![⟨eqSpecies 1 0 1, -1⟩, ⟨eqSpecies 1 0 1, -1⟩, ⟨eqSpecies 1 0 1, 1⟩,
        ⟨eqSpecies 1 0 1, 1⟩] 1 2 2 = 1 := by
      simp only [lastEnergy4, Matrix.cons_val, eqSpecies]
      rw [energy_massless 1 (by norm_num), energy_massless 2 (by norm_num)]; norm_num
    refine integrand_demo _ _ _ _ (by intro i; fin_cases i <;> rfl) rfl rfl 1 1 he ?_ ?_ ?_ ?_ ?_ ?_ ?_ <;>
      (try simp only [Matrix.cons_val, eqSpecies]) <;> norm_num
  · have he : lastEnergy4 ![⟨eqSpecies 1 0 1, -1⟩, ⟨eqSpecies 1 0 1, -1⟩, ⟨eqSpecies 1 0 1, -1⟩,
        ⟨eqSpecies 1 3 1, 1⟩] 1 1 1 = 3 := by
      simp only [lastEnergy4, Matrix.cons_val, eqSpecies]
      rw [energy_massless 1 (by norm_num)]; norm_num
    refine integrand_demo _ _ _ _ (by intro i; fin_cases i <;> rfl) rfl rfl 3 0 he ?_ ?_ ?_ ?_ ?_ ?_ ?_ <;>
      (try simp only [Matrix.cons_val, eqSpecies]) <;> norm_num

/-- A moving particle of mass 2 and momentum 3/2 decaying to two massless ones: `p1 = 1` is allowed; and the
inverse process. -/
example :
    factor3 ![⟨eqSpecies 1 2 1, -1⟩, ⟨eqSpecies 1 0 1, 1⟩, ⟨eqSpecies 1 0 1, 1⟩] (3 / 2) 1 ≠ 0 := by
  have e0 : energy (3 / 2) 2 = 5 / 2 := by
    unfold energy
    rw [show ((3 : ℝ) / 2 * (3 / 2) + 2 * 2) = (5 / 2) ^ 2 by norm_num, Real.sqrt_sq (by norm_num)]
  have he : lastEnergy3 ![⟨eqSpecies 1 2 1, -1⟩, ⟨eqSpecies 1 0 1, 1⟩, ⟨eqSpecies 1 0 1, 1⟩]
      (3 / 2) 1 = 3 / 2 := by
    simp only [lastEnergy3, Matrix.cons_val, eqSpecies]
    rw [e0, energy_massless 1 (by norm_num)]; norm_num
  apply factor3_ne_zero_of _ (by norm_num) (by norm_num) <;> rw [he] <;>
    simp only [Matrix.cons_val, eqSpecies] <;> norm_num

end PyBBN
