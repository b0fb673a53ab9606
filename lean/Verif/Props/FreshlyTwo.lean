import Verif.Props.Freshly
import Verif.Props.Balance
/-!
# C123, decays into two particles

The collision integral of `X → a + b` and of its inverse vanishes, momentum by momentum, when the three species are in
equilibrium at one temperature, by formula or as stored values (tests/unit/non_equilibrium_test.py 108–164 asks this of
one reaction at the momenta of one grid, up to 1e-14).
-/
namespace PyBBN
open MeasureTheory

/-- One point of the integral. -/
theorem fresh_point3 {r : Fin 3 → Reactant} {T p0 p1 : ℝ} (hr : ∀ i, FreshSp (r i).specie T) (s0 : (r 0).side = -1)
    (hs : ∀ i, (r i).side = 1 ∨ (r i).side = -1) (h0 : 0 ≤ p0) (h1 : 0 ≤ p1) (k0 : Known (r 0).specie p0)
    (hk : (r 2).specie.m ≤ lastEnergy3 r p0 p1 → ∀ i, i ≠ 0 → Known (r i).specie (momenta3 r p0 p1 i)) :
    integrandFull3 p0 p1 0 r = .ok 0 := by
  by_cases hE : lastEnergy3 r p0 p1 < (r 2).specie.m
  · unfold integrandFull3
    rw [if_pos (by unfold factor3; rw [if_pos hE])]
  have hn := momenta3_nonneg r h0 h1
  have t0 := (hr 0).thermal h0 k0
  obtain ⟨a, b, ea, -, e, -⟩ := bath_point3 p0 p1 T r s0 hs (hr 2).mass
    (fun i hi => (hr i).thermal (hn i) (hk (not_lt.mp hE) i hi)) ((hr 0).fin p0) _ t0.2
  rw [ea, e]
  unfold bathOcc
  rw [sub_self, mul_zero]

/-- Energies of a point: the last particle is on its mass shell. -/
theorem momentum_of_energy {m E q : ℝ} (h : energy q m ≤ E) : q ≤ √(E ^ 2 - m ^ 2) := by
  apply Real.le_sqrt_of_sq_le
  have h1 := energy_nonneg q m
  have h2 := pow_le_pow_left₀ h1 h 2
  have h3 : energy q m ^ 2 = q * q + m * m := by
    unfold energy
    rw [Real.sq_sqrt (by nlinarith [mul_self_nonneg q, mul_self_nonneg m])]
  nlinarith

theorem upper_nonneg {m0 m1 m2 p : ℝ} (hp : 0 ≤ p) (h2 : 0 ≤ m2) (hm : m2 ≤ m0) : 0 ≤ p1Bounds3 m0 m1 m2 p (-1) 1 := by
  unfold p1Bounds3
  dsimp only
  have := pow_le_pow_left₀ h2 hm 2
  have hs := Real.sqrt_nonneg (if ((p ^ 2 + m0 ^ 2) * (m1 ^ 4 + (m2 ^ 2 - m0 ^ 2) ^ 2 - 2 * m1 ^ 2 * (m2 ^ 2 + m0 ^ 2))) < 0
    then 0 else ((p ^ 2 + m0 ^ 2) * (m1 ^ 4 + (m2 ^ 2 - m0 ^ 2) ^ 2 - 2 * m1 ^ 2 * (m2 ^ 2 + m0 ^ 2))))
  revert hs
  generalize √_ = s
  intro hs
  have hc : p * (m2 ^ 2 - m1 ^ 2 - m0 ^ 2) ≤ 0 := by nlinarith [sq_nonneg m1]
  apply div_nonneg _ (by positivity)
  linarith

/-- **C123, decays into two particles.** Whatever thread visits the points in whatever order, every entry of the
collision integral of the decaying particle is exactly zero, as long as the grids of the products reach the momenta the
decay can give them. -/
theorem C123_decay_two (r : Fin 3 → Reactant) (s0 : (r 0).side = -1) (s1 : (r 1).side = 1) (s2 : (r 2).side = 1)
    (T : ℝ) (hr : ∀ i, FreshSp (r i).specie T) (hopen : (r 2).specie.m ≤ (r 0).specie.m) (min1 max1 max2 : ℝ)
    (ps : List ℝ) (sched : List (List ℕ)) (hv : ValidSchedule ps.length sched) (hp : ∀ p ∈ ps, 0 ≤ p ∧ Known (r 0).specie p ∧
      ∀ i, i ≠ 0 → Known (r i).specie √(energy p (r 0).specie.m ^ 2 - (r i).specie.m ^ 2)) :
    integration3Exact r 0 ps min1 max1 max2 sched = .ok (ps.map fun _ => 0) := by
  have hs : ∀ i, (r i).side = 1 ∨ (r i).side = -1 := by
    intro i
    fin_cases i
    exacts [Or.inr s0, Or.inl s1, Or.inl s2]
  have pt : ∀ p ∈ ps, ∀ p1, 0 ≤ p1 → integrandFull3 p p1 0 r = .ok 0 := by
    intro p hpm p1 h1
    obtain ⟨h0, k0, hk⟩ := hp p hpm
    refine fresh_point3 hr s0 hs h0 h1 k0 fun hl i hi => (hk i hi).mono (momentum_of_energy ?_)
    have ee : lastEnergy3 r p p1 = energy p (r 0).specie.m - energy p1 (r 1).specie.m := by
      unfold lastEnergy3
      rw [s0, s1, s2]; push_cast; ring
    have a1 := energy_nonneg p1 (r 1).specie.m
    have m2 := (hr 2).mass
    fin_cases i
    · exact absurd rfl hi
    · change energy p1 (r 1).specie.m ≤ _; linarith
    · change energy (momenta3 r p p1 2) (r 2).specie.m ≤ _
      rw [show energy (momenta3 r p p1 2) (r 2).specie.m = lastEnergy3 r p p1 from energy_last m2 hl]
      linarith
  unfold integration3Exact
  rw [C40_three_value _ _ _ _ _ _ _ hv]
  apply mapM_ok_map
  intro p hpm
  obtain ⟨h0, k0, hk⟩ := hp p hpm
  by_cases h : p = 0
  · rw [if_pos h]
    subst h
    exact pt 0 hpm _ (p1Bounds1_nonneg _ _ _ (hr 0).mass)
  rw [if_neg h]
  split_ifs with hg
  swap
  · rfl
  rw [exactQuad3_eq]
  congr 1
  have ht : (loopCtx3 r max2).type ≠ -1 := by
    simp [loopCtx3, reactionTypeSum, s0, s1, s2]
  have hlo : 0 ≤ (outerLimits3 (loopCtx3 r max2) p (min1, max1)).1.1 := by
    unfold outerLimits3
    rw [if_neg ht]
    exact abs_nonneg _
  have hhi : 0 ≤ (outerLimits3 (loopCtx3 r max2) p (min1, max1)).1.2 := by
    unfold outerLimits3
    rw [if_neg ht]
    exact upper_nonneg h0 (hr 2).mass hopen
  calc _ = ∫ _ in (outerLimits3 (loopCtx3 r max2) p (min1, max1)).1.1..(outerLimits3 (loopCtx3 r max2) p (min1, max1)).1.2,
        (0 : ℝ) := by
        apply intervalIntegral.integral_congr
        intro p1 hp1
        simp only [pt p hpm p1 ((le_min hlo hhi).trans hp1.1), valOf]
    _ = 0 := by simp

/-- **C123, inverse decays of two particles.** The same for a product of the decay.  Here the outer integral stops where
the decaying particle would leave its grid; only the value stored for a product at rest is taken without that limit. -/
theorem C123_inverse_two (r : Fin 3 → Reactant) (s0 : (r 0).side = -1) (s1 : (r 1).side = -1) (s2 : (r 2).side = 1)
    (T : ℝ) (hr : ∀ i, FreshSp (r i).specie T) (hopen : (r 0).specie.m + (r 1).specie.m < (r 2).specie.m)
    (min1 max1 max2 : ℝ) (hmax : 0 ≤ max2) (hk2 : Known (r 2).specie max2)
    (hk1 : Known (r 1).specie √(energy max2 (r 2).specie.m ^ 2 - (r 1).specie.m ^ 2))
    (ps : List ℝ) (sched : List (List ℕ)) (hv : ValidSchedule ps.length sched)
    (hp : ∀ p ∈ ps, 0 ≤ p ∧ Known (r 0).specie p)
    (hrest : 0 ∈ ps → ∀ i, i ≠ 0 → Known (r i).specie
      (momenta3 r 0 (p1Bounds1 (r 0).specie.m (r 1).specie.m (r 2).specie.m) i)) :
    integration3Exact r 0 ps min1 max1 max2 sched = .ok (ps.map fun _ => 0) := by
  have hs : ∀ i, (r i).side = 1 ∨ (r i).side = -1 := by
    intro i
    fin_cases i
    exacts [Or.inr s0, Or.inr s1, Or.inl s2]
  have hm1 := (hr 1).mass
  have hm2 := (hr 2).mass
  unfold integration3Exact
  rw [C40_three_value _ _ _ _ _ _ _ hv]
  apply mapM_ok_map
  intro p hpm
  obtain ⟨h0', k0⟩ := hp p hpm
  by_cases h : p = 0
  · rw [if_pos h]
    subst h
    exact fresh_point3 hr s0 hs le_rfl (p1Bounds1_nonneg _ _ _ (hr 0).mass) k0 fun _ => hrest hpm
  have h0 : 0 < p := lt_of_le_of_ne h0' (Ne.symm h)
  have pt : ∀ p1, 0 ≤ p1 → momenta3 r p p1 2 ≤ max2 → integrandFull3 p p1 0 r = .ok 0 := by
    intro p1 h1 hcut
    refine fresh_point3 hr s0 hs h0.le h1 k0 fun hl i hi => ?_
    have ee : lastEnergy3 r p p1 = energy p (r 0).specie.m + energy p1 (r 1).specie.m := by
      unfold lastEnergy3
      rw [s0, s1, s2]; push_cast; ring
    have a0 := energy_nonneg p (r 0).specie.m
    have e2 : energy (momenta3 r p p1 2) (r 2).specie.m = lastEnergy3 r p p1 := energy_last hm2 hl
    have e3 := energy_mono (m := (r 2).specie.m) (momenta3_nonneg r h0.le h1 2) hcut
    fin_cases i
    · exact absurd rfl hi
    · refine hk1.mono (momentum_of_energy ?_)
      change energy p1 (r 1).specie.m ≤ _; linarith
    · exact hk2.mono hcut
  rw [if_neg h]
  split_ifs with hg
  swap
  · rfl
  rw [exactQuad3_eq]
  congr 1
  have ht : (loopCtx3 r max2).type = -1 := by
    simp [loopCtx3, reactionTypeSum, s0, s1, s2]
  have hord : 0 ≤ (outerLimits3 (loopCtx3 r max2) p (min1, max1)).1.1 ∧
      (outerLimits3 (loopCtx3 r max2) p (min1, max1)).1.1 ≤ (outerLimits3 (loopCtx3 r max2) p (min1, max1)).1.2 := by
    have habs : ∀ x : ℝ, 0 ≤ max x (-x) := fun x => abs_nonneg x
    unfold outerLimits3 at hg ⊢
    rw [if_pos ht] at hg ⊢
    dsimp only at hg ⊢
    split_ifs at hg ⊢ <;> first | exact ⟨habs _, le_of_lt (not_le.mp ‹_›)⟩
  rw [intervalIntegral.integral_congr_Ioo_of_le (g := fun _ => (0 : ℝ)) hord.2]
  · simp
  intro p1 hp1
  have h1 : 0 < p1 := hord.1.trans_lt hp1.1
  have hcut : momenta3 r p p1 2 ≤ max2 := by
    rcases (hr 0).mass.eq_or_lt with e | e
    · exact ((creation3_limits_massless r max2 p p1 (min1, max1) s0 s1 s2 e.symm hm1 hm2 (by rw [← e] at hopen; linarith)
        hmax h0 h1).2 hg hp1.1 hp1.2).2
    · exact ((creation3_limits r max2 p p1 (min1, max1) s0 s1 s2 e hm1 hm2 hopen.le hmax h0 h1).2 hg hp1.1 hp1.2).2
  simp only [pt p1 h1.le hcut, valOf]

section Example

/-- A species thermal at `T = 1`, stored on a grid up to momentum 8. -/
private noncomputable def freshTwo (eta : ℤ) (m : ℝ) : CParticle :=
  ⟨eta, m, [0, 2, 8], [0, 2, 8].map fun x => 1 / (Real.exp (energy x m / 1) + (eta : ℝ)), false, 1⟩

private theorem freshTwo_fresh {eta : ℤ} {m : ℝ} (hm : 0 ≤ m) (h : eta = 1 ∨ eta = -1 ∧ 0 < m) : FreshSp (freshTwo eta m) 1 := by
  refine ⟨rfl, one_pos, hm, h, fun _ => ⟨⟨[2, 8], rfl⟩, by norm_num [freshTwo], rfl, fun i hi hd => ?_⟩⟩
  simp only [freshTwo, List.getElem_map]

private theorem freshTwo_known {eta : ℤ} {m p : ℝ} (h : p ≤ 8) : Known (freshTwo eta m) p :=
  Or.inr ⟨by simp [freshTwo], by simpa [freshTwo] using h⟩

/-- A boson of mass 5 and two massless fermions: the boson, at rest and moving, is not changed by its decay. -/
example (sched : List (List ℕ)) (hs : ValidSchedule 3 sched) :
    integration3Exact ![⟨freshTwo (-1) 5, -1⟩, ⟨freshTwo 1 0, 1⟩, ⟨freshTwo 1 0, 1⟩] 0 [0, 2, 6] 0 8 8 sched =
      .ok [0, 0, 0] := by
  refine C123_decay_two ![⟨freshTwo (-1) 5, -1⟩, ⟨freshTwo 1 0, 1⟩, ⟨freshTwo 1 0, 1⟩] rfl rfl rfl 1 ?_
    (by change (0 : ℝ) ≤ 5; norm_num) 0 8 8 [0, 2, 6] sched hs ?_
  · intro i
    fin_cases i
    · exact freshTwo_fresh (by norm_num) (Or.inr ⟨rfl, by norm_num⟩)
    · exact freshTwo_fresh le_rfl (Or.inl rfl)
    · exact freshTwo_fresh le_rfl (Or.inl rfl)
  · intro p hp
    have hp : 0 ≤ p ∧ p ≤ 6 := by
      simp only [List.mem_cons, List.not_mem_nil, or_false] at hp
      rcases hp with rfl | rfl | rfl <;> norm_num
    refine ⟨hp.1, freshTwo_known (by linarith), fun i hi => ?_⟩
    have hq : √(energy p 5 ^ 2 - 0 ^ 2) ≤ 8 := by
      rw [← energyOf_eq, energyOf, Real.sq_sqrt (by positivity)]
      apply Real.sqrt_le_iff.mpr ⟨by norm_num, by nlinarith⟩
    fin_cases i
    · exact absurd rfl hi
    all_goals exact freshTwo_known hq

/-- The fermions are not changed by the inverse decay. -/
example (sched : List (List ℕ)) (hs : ValidSchedule 3 sched) :
    integration3Exact ![⟨freshTwo 1 0, -1⟩, ⟨freshTwo 1 0, -1⟩, ⟨freshTwo (-1) 5, 1⟩] 0 [0, 2, 8] 0 8 6 sched =
      .ok [0, 0, 0] := by
  have hq : √(energy 6 5 ^ 2 - 0 ^ 2) ≤ 8 := by
    rw [← energyOf_eq, energyOf, Real.sq_sqrt (by positivity)]
    apply Real.sqrt_le_iff.mpr ⟨by norm_num, by norm_num⟩
  refine C123_inverse_two ![⟨freshTwo 1 0, -1⟩, ⟨freshTwo 1 0, -1⟩, ⟨freshTwo (-1) 5, 1⟩] rfl rfl rfl 1 ?_
    (by change (0 : ℝ) + 0 < 5; norm_num) 0 8 6 (by norm_num) (freshTwo_known (by norm_num)) (freshTwo_known hq)
    [0, 2, 8] sched hs ?_ ?_
  · intro i
    fin_cases i
    · exact freshTwo_fresh le_rfl (Or.inl rfl)
    · exact freshTwo_fresh le_rfl (Or.inl rfl)
    · exact freshTwo_fresh (by norm_num) (Or.inr ⟨rfl, by norm_num⟩)
  · intro p hp
    simp only [List.mem_cons, List.not_mem_nil, or_false] at hp
    rcases hp with rfl | rfl | rfl <;> exact ⟨by norm_num, freshTwo_known (by norm_num)⟩
  · intro _ i hi
    have h1 : p1Bounds1 0 0 5 = 0 := by unfold p1Bounds1; rw [if_pos rfl]
    fin_cases i
    · exact absurd rfl hi
    · change Known (freshTwo 1 0) (p1Bounds1 0 0 5)
      rw [h1]; exact freshTwo_known (by norm_num)
    · change Known (freshTwo (-1) 5) (√(lastEnergy3 _ 0 (p1Bounds1 0 0 5) ^ 2 - 5 ^ 2))
      rw [h1]
      refine freshTwo_known ?_
      have : lastEnergy3 ![⟨freshTwo 1 0, -1⟩, ⟨freshTwo 1 0, -1⟩, ⟨freshTwo (-1) 5, 1⟩] 0 0 = 0 := by
        simp [lastEnergy3, freshTwo, energy]
      rw [this, Real.sqrt_eq_zero'.mpr (by norm_num)]
      norm_num

end Example

end PyBBN
