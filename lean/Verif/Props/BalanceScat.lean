import Verif.Lemmas.PhaseScat
import Verif.Props.Balance4
/-!
# C104: balance of a two-particle scattering

The four species of `a + b → c + d` compute their collision integrals separately, each from its own view of the
reaction.  The equation of a species counts the events in which it and its partner on the same side are inside their
momentum grids.  Specification: the weighted totals of the four collision integrals add up to an integral over all
events, in which the two sides count the events inside their grids; so whatever is additive in the reaction is
conserved when no event is inside the grids of one side only, and what is shared by the partners of one side always is.
-/
namespace PyBBN
open MeasureTheory

/-! ## One entry of the loop -/

section
variable {s : Fin 4 → Reactant}

theorem scatMin1_nonneg (c : LoopCtx) (p0 : ℝ) : 0 ≤ scatMin1 c p0 := by
  unfold scatMin1
  dsimp only
  split_ifs
  · exact le_rfl
  · exact Real.sqrt_nonneg _

theorem scatMin1_le (c : LoopCtx) (p0 : ℝ) : scatMin1 c p0 ≤ max 0 (c.m2 + c.m3 - c.m0) := by
  unfold scatMin1
  dsimp only
  split_ifs with h
  · exact le_max_left _ _
  · push Not at h
    refine le_max_of_le_right ?_
    have := mass_le_energy p0 c.m0
    refine (Real.sqrt_le_left h.1.le).mpr ?_ |>.trans (by linarith : c.m2 + c.m3 - energy p0 c.m0 ≤ _)
    linarith [sq_nonneg c.m1]

/-- Entry of a scattering. -/
theorem entry4_scattering (Ms : List CM) (kind : ℤ) (max3 P : ℝ) (dflt : ℝ × ℝ)
    (s0 : (s 0).side = -1) (s1 : (s 1).side = -1) (s2 : (s 2).side = 1) (s3 : (s 3).side = 1)
    (hm0 : 0 ≤ (s 0).specie.m) (hm3 : 0 ≤ (s 3).specie.m) (p0 : ℝ) (h0 : 0 < p0)
    (hP : scatMin1 (loopCtx4 s max3) p0 ≤ P) (h : ℝ → ℝ → ℝ)
    (hv : ∀ p1 p2, 0 < p1 → 0 < p2 → p1 ≤ P → valOf (integrandFull4 p0 p1 p2 s Ms kind) = h p1 p2)
    (hz : ∀ p1 p2, 0 < p1 → 0 < p2 → ¬ p1 ≤ P → h p1 p2 = 0) :
    exactQuad4 s Ms kind max3 dflt p0 (scatMin1 (loopCtx4 s max3) p0) P =
      .ok (∫ p1 in Set.Ioi 0, ∫ p2 in Set.Ioi 0, h p1 p2) := by
  have ht : (loopCtx4 s max3).type = 0 := by simp [loopCtx4, reactionTypeSum, s0, s1, s2, s3]
  rw [exactQuad4_eq]
  congr 1
  have hin : ∀ p1, innerLimits (loopCtx4 s max3).type (loopCtx4 s max3).m0 (loopCtx4 s max3).m1
      (loopCtx4 s max3).m2 (loopCtx4 s max3).m3 (loopCtx4 s max3).max3 p0 p1 dflt =
      some (0, √((energy p0 (s 0).specie.m + energy p1 (s 1).specie.m - (s 3).specie.m) ^ 2 - (s 2).specie.m ^ 2)) := by
    intro p1
    unfold innerLimits p2MinScat p2MaxScat
    rw [if_neg (by rw [ht]; decide), if_pos ht, if_pos h0.ne', if_pos h0.ne']
    rfl
  apply integral_limits2 _ _ _ _ _ (scatMin1_nonneg _ _) hP
  · intro p a b _ hp
    rw [hin] at hp
    have := Option.some.inj hp
    rw [Prod.mk.injEq] at this
    rw [← this.1, ← this.2]
    exact ⟨le_rfl, Real.sqrt_nonneg _⟩
  · intro p q hp hq hne
    have hc : p ≤ P := by
      by_contra hn
      exact hne (hz p q hp hq hn)
    rw [← hv p q hp hq hc] at hne
    obtain ⟨-, c, -, a, b, e, x, y⟩ := C64_scattering s Ms kind max3 p0 p q _ (0, P) dflt s0 s1 s2 s3 hm0 hm3
      h0.le hp.le hq.le hne (ok_of_valOf hne)
    change (outerLimits (loopCtx4 s max3) p0 (0, P)).1.1 ≤ p at c
    unfold outerLimits at c
    rw [if_neg (by rw [ht]; decide), if_pos ht] at c
    exact ⟨c, hc, a, b, e, x, y⟩
  · intro p q a b hp hq _ hpP _ _ _
    exact hv p q hp hq hpP.le

end

/-! ## Density of events -/

section
variable (r : Fin 4 → Reactant) (Ms : List CM) (v : Fin 4 → ℝ → ℝ) (P : Fin 4 → ℝ)

open Classical in
/-- Net rate of the reaction at given energies of the four particles. -/
noncomputable def rate4 (e : Fin 4 → ℝ) : ℝ :=
  if ∀ i, (r i).specie.m ≤ e i then
    kern r Ms (fun i => momOf (r i).specie.m (e i)) e * netFlux4 r (fun i => v i (momOf (r i).specie.m (e i))) else 0

/-- The particles of side `t` are inside their grids. -/
def InGrids (t : ℤ) (e : Fin 4 → ℝ) : Prop := ∀ i, (r i).side = t → e i ≤ energyOf (r i).specie.m (P i)

open Classical in
/-- Rate of the events counted by side `t`. -/
noncomputable def rateBoxed (t : ℤ) (e : Fin 4 → ℝ) : ℝ := if InGrids r P t e then rate4 r Ms v e else 0

variable {r Ms v P}

theorem rate4_support {e : Fin 4 → ℝ} (h : rate4 r Ms v e ≠ 0) : ∀ i, (r i).specie.m ≤ e i := by
  by_contra hn
  apply h
  unfold rate4
  exact if_neg hn

theorem rateBoxed_support {t : ℤ} {e : Fin 4 → ℝ} (h : rateBoxed r Ms v P t e ≠ 0) :
    (∀ i, (r i).specie.m ≤ e i) ∧ InGrids r P t e := by
  unfold rateBoxed at h
  by_cases hg : InGrids r P t e
  · rw [if_pos hg] at h
    exact ⟨rate4_support h, hg⟩
  · rw [if_neg hg] at h
    exact absurd rfl h

/-- The rate is affine in each spectrum. -/
theorem rateBoxed_affine (t : ℤ) (i : Fin 4) (e : Fin 4 → ℝ) :
    rateBoxed r Ms v P t e = rateBoxed r Ms (Function.update v i fun _ => 0) P t e +
      v i (momOf (r i).specie.m (e i)) * (rateBoxed r Ms (Function.update v i fun _ => 1) P t e -
        rateBoxed r Ms (Function.update v i fun _ => 0) P t e) := by
  unfold rateBoxed rate4
  rw [update_apply_fun i i 0 0, update_apply_fun i i 1 0]
  split_ifs with h
  · rw [netFlux4_affine r _ i]; ring
  · ring
  · ring

/-- `a + b → c + d`. -/
structure Sides4 (r : Fin 4 → Reactant) : Prop where
  left0 : (r 0).side = -1
  left1 : (r 1).side = -1
  right2 : (r 2).side = 1
  right3 : (r 3).side = 1

theorem Sides4.sides (h : Sides4 r) (i : Fin 4) : (r i).side = 1 ∨ (r i).side = -1 := by
  fin_cases i
  · exact Or.inr h.left0
  · exact Or.inr h.left1
  · exact Or.inl h.right2
  · exact Or.inl h.right3

theorem conserve2_measurable (i : Fin 4) : Measurable fun z : ℝ × ℝ × ℝ => conserve2 z.1 z.2.1 z.2.2 i := by
  fin_cases i
  · exact measurable_fst
  · exact measurable_fst.comp measurable_snd
  · exact measurable_snd.comp measurable_snd
  · exact (measurable_fst.add (measurable_fst.comp measurable_snd)).sub (measurable_snd.comp measurable_snd)

theorem rateBoxed_nice (B : ℝ) (hr : Sides4 r) (hm : ∀ i, 0 ≤ (r i).specie.m)
    (heta : ∀ i, (r i).specie.eta = 1 ∨ (r i).specie.eta = -1) (hv : ∀ i, Measurable (v i))
    (hB : ∀ i p, 0 ≤ p → |v i p| ≤ B) (t : ℤ) (ht : t = 1 ∨ t = -1) :
    Nice3 fun x y z => rateBoxed r Ms v P t (conserve2 x y z) := by
  classical
  set R := ∑ i, energyOf (r i).specie.m (P i) with hR
  have hR' : ∀ i, 0 ≤ energyOf (r i).specie.m (P i) := fun i => Real.sqrt_nonneg _
  rw [Fin.sum_univ_four] at hR
  have hbox : ∀ x y z, (∀ i, (r i).specie.m ≤ conserve2 x y z i) ∧ InGrids r P t (conserve2 x y z) →
      ∀ i, 0 ≤ conserve2 x y z i ∧ conserve2 x y z i ≤ R := by
    rintro x y z ⟨h, hg⟩
    have n : ∀ i, 0 ≤ conserve2 x y z i := fun i => (hm i).trans (h i)
    have a0 : 0 ≤ x := n 0
    have a1 : 0 ≤ y := n 1
    have a2 : 0 ≤ z := n 2
    have a3 : 0 ≤ x + y - z := n 3
    have b0 := hR' 0
    have b1 := hR' 1
    have b2 := hR' 2
    have b3 := hR' 3
    have key : x + y ≤ R := by
      rcases ht with rfl | rfl
      · have c2 : z ≤ _ := hg 2 hr.right2
        have c3 : x + y - z ≤ _ := hg 3 hr.right3
        linarith
      · have c0 : x ≤ _ := hg 0 hr.left0
        have c1 : y ≤ _ := hg 1 hr.left1
        linarith
    intro i
    refine ⟨n i, ?_⟩
    fin_cases i
    · change x ≤ R; linarith
    · change y ≤ R; linarith
    · change z ≤ R; linarith
    · change x + y - z ≤ R; linarith
  have hmom : ∀ i, Measurable fun z : ℝ × ℝ × ℝ => momOf (r i).specie.m (conserve2 z.1 z.2.1 z.2.2 i) :=
    fun i => (momOf_measurable _).comp (conserve2_measurable i)
  refine ⟨?_, ?_, ⟨R, ?_⟩⟩
  · unfold rateBoxed rate4
    have hms : MeasurableSet {z : ℝ × ℝ × ℝ | InGrids r P t (conserve2 z.1 z.2.1 z.2.2)} := by
      have : {z : ℝ × ℝ × ℝ | InGrids r P t (conserve2 z.1 z.2.1 z.2.2)} =
          ⋂ i, {z | (r i).side = t → conserve2 z.1 z.2.1 z.2.2 i ≤ energyOf (r i).specie.m (P i)} := by
        ext z; simp [InGrids]
      rw [this]
      refine MeasurableSet.iInter fun i => ?_
      by_cases h : (r i).side = t
      · simp only [h, true_imp_iff]
        exact measurableSet_le (conserve2_measurable i) measurable_const
      · simp [h]
    have hms' : MeasurableSet {z : ℝ × ℝ × ℝ | ∀ i, (r i).specie.m ≤ conserve2 z.1 z.2.1 z.2.2 i} := by
      have : {z : ℝ × ℝ × ℝ | ∀ i, (r i).specie.m ≤ conserve2 z.1 z.2.1 z.2.2 i} =
          ⋂ i, {z | (r i).specie.m ≤ conserve2 z.1 z.2.1 z.2.2 i} := by
        ext z; simp
      rw [this]
      exact MeasurableSet.iInter fun i => measurableSet_le measurable_const (conserve2_measurable i)
    refine Measurable.ite hms (Measurable.ite hms' ?_ measurable_const) measurable_const
    apply Measurable.mul
    · exact (kern_continuous r Ms).measurable.comp
        ((measurable_pi_lambda _ hmom).prodMk (measurable_pi_lambda _ conserve2_measurable))
    · exact netFlux4_measurable hv hmom
  · obtain ⟨C, hC⟩ := kern_bound r Ms R
    refine ⟨|C| * (2 * (2 * max B 1) ^ 4), fun x y z => ?_⟩
    by_cases h : rateBoxed r Ms v P t (conserve2 x y z) = 0
    · rw [h, abs_zero]; positivity
    · have hs := rateBoxed_support h
      have hE := hbox x y z hs
      unfold rateBoxed rate4
      rw [if_pos hs.2, if_pos hs.1, abs_mul]
      apply mul_le_mul _ _ (abs_nonneg _) (abs_nonneg _)
      · refine (hC _ _ (fun i => ?_) (fun i => ?_)).trans (le_abs_self _)
        · exact (momOf_le_self _ _ (hE i).1).trans (hE i).2
        · rw [abs_of_nonneg (hE i).1]; exact (hE i).2
      · have hb : ∀ i, |v i (momOf (r i).specie.m (conserve2 x y z i))| ≤ max B 1 :=
          fun i => (hB i _ (Real.sqrt_nonneg _)).trans (le_max_left _ _)
        refine (abs_sub _ _).trans ?_
        linarith [flux_bound4 (r := r) (max B 1) (le_max_right _ _) heta _ hb 1,
          flux_bound4 (r := r) (max B 1) (le_max_right _ _) heta _ hb (-1)]
  · intro x y z hne
    have hE := hbox x y z (rateBoxed_support hne)
    have b0 : 0 ≤ x ∧ x ≤ R := hE 0
    have b1 : 0 ≤ y ∧ y ≤ R := hE 1
    have b2 : 0 ≤ z ∧ z ≤ R := hE 2
    rw [abs_of_nonneg b0.1, abs_of_nonneg b1.1, abs_of_nonneg b2.1]
    exact ⟨b0.2, b1.2, b2.2⟩

theorem partner_side (hr : Sides4 r) (i : Fin 4) : (r (mate i)).side = (r i).side := by
  fin_cases i
  · exact hr.left1.trans hr.left0.symm
  · exact hr.left0.trans hr.left1.symm
  · exact hr.right3.trans hr.right2.symm
  · exact hr.right2.trans hr.right3.symm

theorem other_side (hr : Sides4 r) (i j : Fin 4) (h0 : j ≠ i) (h1 : j ≠ mate i) : (r j).side = -(r i).side := by
  have : ∀ i j : Fin 4, j ≠ i → j ≠ mate i → (i = 0 ∨ i = 1) ∧ (j = 2 ∨ j = 3) ∨ (i = 2 ∨ i = 3) ∧ (j = 0 ∨ j = 1) := by
    intro i; fin_cases i <;> decide
  rcases this i j h0 h1 with ⟨a, b⟩ | ⟨a, b⟩ <;> rcases a with rfl | rfl <;> rcases b with rfl | rfl <;>
    simp [hr.left0, hr.left1, hr.right2, hr.right3]

/-- Sides of the particles in the view of one of them. -/
theorem view_sides2 (hr : Sides4 r) (σ : Equiv.Perm (Fin 4)) (hσ : σ 1 = mate (σ 0)) :
    (viewOf r σ (-(r (σ 0)).side) 0).side = -1 ∧ (viewOf r σ (-(r (σ 0)).side) 1).side = -1 ∧
    (viewOf r σ (-(r (σ 0)).side) 2).side = 1 ∧ (viewOf r σ (-(r (σ 0)).side) 3).side = 1 := by
  have e : ∀ j, (viewOf r σ (-(r (σ 0)).side) j).side = -(r (σ 0)).side * (r (σ j)).side := fun _ => rfl
  have sq : (r (σ 0)).side * (r (σ 0)).side = 1 := by
    rcases hr.sides (σ 0) with h | h <;> rw [h] <;> rfl
  have hne : ∀ j, j ≠ 0 → j ≠ 1 → (r (σ j)).side = -(r (σ 0)).side := by
    intro j h0 h1
    exact other_side hr _ _ (fun h => h0 (σ.injective h)) fun h => h1 (σ.injective (h.trans hσ.symm))
  rw [e, e, e, e, hσ, partner_side hr, hne 2 (by decide) (by decide), hne 3 (by decide) (by decide)]
  refine ⟨?_, ?_, ?_, ?_⟩ <;> linarith

/-- The density seen by one of the particles. -/
theorem dens4_scattering (hr : Sides4 r) (hP : ∀ i, 0 ≤ P i) (hm : ∀ i, 0 ≤ (r i).specie.m) (σ : Equiv.Perm (Fin 4))
    (hσ : σ 1 = mate (σ 0)) (a b c : ℝ)
    (ha : (r (σ 0)).specie.m ≤ a) (hb : (r (σ 1)).specie.m ≤ b) (hc : (r (σ 2)).specie.m ≤ c) :
    dens4 (viewOf r σ (-(r (σ 0)).side)) (viewMs Ms σ) (fun j => v (σ j))
      (fun p0 p1 _ => p0 ≤ P (σ 0) ∧ p1 ≤ P (σ 1))
      (momOf (r (σ 0)).specie.m a) (momOf (r (σ 1)).specie.m b) (momOf (r (σ 2)).specie.m c) =
      ((-(r (σ 0)).side : ℤ) : ℝ) * rateBoxed r Ms v P (r (σ 0)).side (place2 σ a b c) := by
  set s : ℤ := -(r (σ 0)).side with hs
  have hs1 : s = 1 ∨ s = -1 := by
    rcases hr.sides (σ 0) with h | h <;> rw [hs, h] <;> simp
  obtain ⟨t0, t1, t2, t3⟩ := view_sides2 hr σ hσ
  rw [← hs] at t0 t1 t2 t3
  have hL : lastEnergy4 (viewOf r σ s) (momOf (r (σ 0)).specie.m a) (momOf (r (σ 1)).specie.m b)
      (momOf (r (σ 2)).specie.m c) = a + b - c := by
    unfold lastEnergy4
    rw [t0, t1, t2, t3]
    change (0 + ((-1 : ℤ) : ℝ) * energy _ (r (σ 0)).specie.m + ((-1 : ℤ) : ℝ) * energy _ (r (σ 1)).specie.m +
      ((1 : ℤ) : ℝ) * energy _ (r (σ 2)).specie.m) * (-((1 : ℤ) : ℝ)) = _
    rw [← energyOf_eq, ← energyOf_eq,
      ← energyOf_eq, energyOf_momOf _ _ (hm _) ha, energyOf_momOf _ _ (hm _) hb, energyOf_momOf _ _ (hm _) hc]
    push_cast; ring
  have hp : momenta4 (viewOf r σ s) (momOf (r (σ 0)).specie.m a) (momOf (r (σ 1)).specie.m b)
      (momOf (r (σ 2)).specie.m c) = (fun i => momOf (r i).specie.m (place2 σ a b c i)) ∘ σ := by
    funext j
    rw [Function.comp_apply, place2_apply]
    fin_cases j
    · rfl
    · rfl
    · rfl
    · change √(lastEnergy4 (viewOf r σ s) _ _ _ ^ 2 - _) = _
      rw [hL]; rfl
  have hE : energies4 (viewOf r σ s) (momOf (r (σ 0)).specie.m a) (momOf (r (σ 1)).specie.m b)
      (momOf (r (σ 2)).specie.m c) = place2 σ a b c ∘ σ := by
    funext j
    rw [Function.comp_apply, place2_apply]
    fin_cases j
    · change energy _ (r (σ 0)).specie.m = a
      rw [← energyOf_eq, energyOf_momOf _ _ (hm _) ha]
    · change energy _ (r (σ 1)).specie.m = b
      rw [← energyOf_eq, energyOf_momOf _ _ (hm _) hb]
    · change energy _ (r (σ 2)).specie.m = c
      rw [← energyOf_eq, energyOf_momOf _ _ (hm _) hc]
    · exact hL
  have q0 : place2 σ a b c (σ 0) = a := place2_apply σ a b c 0
  have q1 : place2 σ a b c (σ 1) = b := place2_apply σ a b c 1
  have hgrid : InGrids r P (r (σ 0)).side (place2 σ a b c) ↔ momOf (r (σ 0)).specie.m a ≤ P (σ 0) ∧
      momOf (r (σ 1)).specie.m b ≤ P (σ 1) := by
    rw [momOf_le _ _ _ (hm _) ha (hP _), momOf_le _ _ _ (hm _) hb (hP _)]
    constructor
    · intro h
      have h0 := h (σ 0) rfl
      have h1 := h (σ 1) (by rw [hσ, partner_side hr])
      rw [q0] at h0
      rw [q1] at h1
      exact ⟨h0, h1⟩
    · rintro ⟨x, y⟩ i hi
      by_cases i0 : i = σ 0
      · rw [i0, q0]; exact x
      · by_cases i1 : i = σ 1
        · rw [i1, q1]; exact y
        · have := other_side hr (σ 0) i i0 (by rw [← hσ]; exact i1)
          exfalso
          rcases hr.sides (σ 0) with h | h <;> rw [hi, h] at this <;> norm_num at this
  have hmass : (∀ i, (r i).specie.m ≤ place2 σ a b c i) ↔ (r (σ 3)).specie.m ≤ a + b - c := by
    constructor
    · intro h
      have := h (σ 3)
      rw [place2_apply] at this
      exact this
    · intro h i
      obtain ⟨j, rfl⟩ := σ.surjective i
      rw [place2_apply]
      fin_cases j
      · exact ha
      · exact hb
      · exact hc
      · exact h
  unfold dens4 rateBoxed rate4
  by_cases hg : InGrids r P (r (σ 0)).side (place2 σ a b c)
  · by_cases hmm : ∀ i, (r i).specie.m ≤ place2 σ a b c i
    · rw [if_pos hg, if_pos hmm, if_pos ⟨(by rw [hL]; exact hmass.mp hmm), hgrid.mp hg⟩, hp, hE,
        kern_view r Ms σ s hs1]
      have := flux_net r (fun i => v i (momOf (r i).specie.m (place2 σ a b c i))) σ s hs1
      unfold netFlux4
      change _ * (flux (viewOf r σ s) ((fun i => v i (momOf (r i).specie.m (place2 σ a b c i))) ∘ σ) 1 -
        flux (viewOf r σ s) ((fun i => v i (momOf (r i).specie.m (place2 σ a b c i))) ∘ σ) (-1)) = _
      rw [this]
      ring
    · rw [if_pos hg, if_neg hmm, mul_zero]
      apply if_neg
      rintro ⟨h, -⟩
      rw [hL] at h
      exact hmm (hmass.mpr h)
  · rw [if_neg hg, mul_zero]
    apply if_neg
    rintro ⟨-, h⟩
    exact hg (hgrid.mpr h)

end

/-! ## Collision integrals -/

/-- A scattering `a + b → c + d` with spectra `f` and matrix elements `Ms`. -/
structure Scatter4 (r : Fin 4 → Reactant) (Ms : List CM) (f : Fin 4 → ℝ → ℝ) : Prop where
  scat : Sides4 r
  masses : ∀ i, 0 ≤ (r i).specie.m
  eta : ∀ i, (r i).specie.eta = 1 ∨ (r i).specie.eta = -1
  occ : ∀ i p, 0 ≤ p → occAt (r i).specie p = .ok (f i p)
  nonneg : ∀ i p, 0 ≤ p → 0 ≤ f i p
  meas : ∀ i, Measurable (f i)
  bdd : ∃ B, ∀ i p, 0 ≤ p → f i p ≤ B
  some : Ms ≠ []
  plain : ∀ M ∈ Ms, M.K = 0
  order : ∀ M ∈ Ms, M.order.Bijective

section
variable {r : Fin 4 → Reactant} {Ms : List CM} {f : Fin 4 → ℝ → ℝ} {P : Fin 4 → ℝ}

theorem Scatter4.nice (d : Scatter4 r Ms f) (i : Fin 4) (c : ℝ) (t : ℤ) (ht : t = 1 ∨ t = -1) :
    Nice3 fun x y z => rateBoxed r Ms (Function.update f i fun _ => c) P t (conserve2 x y z) := by
  obtain ⟨B, hB⟩ := d.bdd
  apply rateBoxed_nice (max B |c|) d.scat d.masses d.eta _ _ t ht
  · intro j
    by_cases h : j = i
    · subst h; rw [Function.update_self]; exact measurable_const
    · rw [Function.update_of_ne h]; exact d.meas j
  · intro j p hp
    by_cases h : j = i
    · subst h; rw [Function.update_self]; exact le_max_right _ _
    · rw [Function.update_of_ne h, abs_of_nonneg (d.nonneg j p hp)]; exact (hB j p hp).trans (le_max_left _ _)

theorem Scatter4.nice' (d : Scatter4 r Ms f) (t : ℤ) (ht : t = 1 ∨ t = -1) :
    Nice3 fun x y z => rateBoxed r Ms f P t (conserve2 x y z) := by
  obtain ⟨B, hB⟩ := d.bdd
  apply rateBoxed_nice B d.scat d.masses d.eta d.meas _ t ht
  intro j p hp
  rw [abs_of_nonneg (d.nonneg j p hp)]; exact hB j p hp

/-- The collision integral of one of the particles in terms of the density of events. -/
theorem value_scattering (d : Scatter4 r Ms f) (hP : ∀ i, 0 ≤ P i) (σ : Equiv.Perm (Fin 4)) (hσ : σ 1 = mate (σ 0))
    (hthr : (r (σ 2)).specie.m + (r (σ 3)).specie.m - (r (σ 0)).specie.m ≤ P (σ 1)) (max3 : ℝ)
    (dflt : ℝ × ℝ) (p : ℝ) (hp : 0 < p) (hpP : p ≤ P (σ 0)) :
    let s := -(r (σ 0)).side
    let c := loopCtx4 (viewOf r σ s) max3
    valOf (exactQuad4 (viewOf r σ s) (viewMs Ms σ) 1 max3 dflt p (scatMin1 c p) (P (σ 1))) +
      f (σ 0) p * valOf (exactQuad4 (viewOf r σ s) (viewMs Ms σ) 2 max3 dflt p (scatMin1 c p) (P (σ 1))) =
    (s : ℝ) * ((p * energyOf (r (σ 0)).specie.m p)⁻¹ * ∫ y, ∫ z, rateBoxed r Ms f P (r (σ 0)).side
      (place2 σ (energyOf (r (σ 0)).specie.m p) y z)) := by
  intro s ctx
  have hs1 : s = 1 ∨ s = -1 := by
    rcases d.scat.sides (σ 0) with h | h <;> change -_ = _ ∨ -_ = _ <;> rw [h] <;> simp
  have ht := d.scat.sides (σ 0)
  obtain ⟨t0, t1, t2, t3⟩ := view_sides2 d.scat σ hσ
  have hMs : viewMs Ms σ ≠ [] := by
    unfold viewMs; simpa using d.some
  have hK : ∀ M ∈ viewMs Ms σ, M.K = 0 := by
    intro M hM
    obtain ⟨M', h, rfl⟩ := List.mem_map.mp hM
    exact d.plain M' h
  have ho : ∀ M ∈ viewMs Ms σ, M.order.Bijective := by
    intro M hM
    obtain ⟨M', h, rfl⟩ := List.mem_map.mp hM
    exact σ.symm.bijective.comp (d.order M' h)
  have hlow : scatMin1 ctx p ≤ P (σ 1) := (scatMin1_le _ _).trans (max_le (hP _) hthr)
  set m0 := (r (σ 0)).specie.m with hm0
  set m1 := (r (σ 1)).specie.m with hm1
  set m2 := (r (σ 2)).specie.m with hm2
  set E := energyOf m0 p with hE
  have hEm : m0 ≤ E := (energyOf_gt _ p (d.masses _) hp).le
  have hpE : momOf m0 E = p := momOf_energyOf _ _ hp.le
  set F : Fin 4 → ℝ → ℝ := fun j => f (σ j) with hF
  set c : ℝ → ℝ → ℝ → Prop := fun p0 p1 _ => p0 ≤ P (σ 0) ∧ p1 ≤ P (σ 1) with hc
  have parts := fun p1 p2 (h1 : 0 < p1) (h2 : 0 < p2) (hcc : p1 ≤ P (σ 1)) =>
    integrand4_parts (F := F) hMs hK ho (view_sides r σ s hs1 d.scat.sides) t0 (fun j => d.masses (σ j))
      (fun j => d.occ (σ j)) (fun j => d.nonneg (σ j)) hp h1 h2 c ⟨hpP, hcc⟩
  have hz : ∀ v p1 p2, ¬ p1 ≤ P (σ 1) → dens4 (viewOf r σ s) (viewMs Ms σ) v c p p1 p2 = 0 := by
    intro v p1 p2 h
    unfold dens4
    exact if_neg fun h' => h h'.2.2
  rw [entry4_scattering (viewMs Ms σ) 1 max3 (P (σ 1)) dflt t0 t1 t2 t3 (d.masses _) (d.masses _) p hp hlow _
      (fun p1 p2 h1 h2 hcc => (parts p1 p2 h1 h2 hcc).1)
      (fun p1 p2 h1 h2 hcc => by rw [hz _ _ _ hcc, mul_zero, mul_zero]),
    entry4_scattering (viewMs Ms σ) 2 max3 (P (σ 1)) dflt t0 t1 t2 t3 (d.masses _) (d.masses _) p hp hlow _
      (fun p1 p2 h1 h2 hcc => (parts p1 p2 h1 h2 hcc).2)
      (fun p1 p2 h1 h2 hcc => by rw [hz _ _ _ hcc, hz _ _ _ hcc, sub_zero, mul_zero, mul_zero])]
  change (∫ p1 in Set.Ioi 0, ∫ p2 in Set.Ioi 0, _) + f (σ 0) p * (∫ p1 in Set.Ioi 0, ∫ p2 in Set.Ioi 0, _) = _
  have e0 : (viewOf r σ s 0).specie.m = m0 := rfl
  have e1 : (viewOf r σ s 1).specie.m = m1 := rfl
  have e2 : (viewOf r σ s 2).specie.m = m2 := rfl
  rw [e0, e1, e2]
  rw [inner4_eq m0 m1 m2 (d.masses _) (d.masses _)
      (dens4 (viewOf r σ s) (viewMs Ms σ) (Function.update F 0 fun _ => 0) c),
    inner4_eq m0 m1 m2 (d.masses _) (d.masses _) (fun p0 p1 p2 =>
      dens4 (viewOf r σ s) (viewMs Ms σ) (Function.update F 0 fun _ => 1) c p0 p1 p2 -
      dens4 (viewOf r σ s) (viewMs Ms σ) (Function.update F 0 fun _ => 0) c p0 p1 p2)]
  set G : (Fin 4 → ℝ → ℝ) → ℝ → ℝ → ℝ := fun v y z => rateBoxed r Ms v P (r (σ 0)).side (place2 σ E y z) with hG
  have hup : ∀ x : ℝ, Function.update F 0 (fun _ => x) = fun j => (Function.update f (σ 0) fun _ => x) (σ j) := by
    intro x
    funext j
    by_cases h : j = 0
    · subst h; rw [Function.update_self, Function.update_self]
    · rw [Function.update_of_ne h, Function.update_of_ne fun h' => h (σ.injective h')]
  have hdens : ∀ x : ℝ, ∀ y, m1 < y → ∀ z, m2 < z →
      dens4 (viewOf r σ s) (viewMs Ms σ) (Function.update F 0 fun _ => x) c p (momOf m1 y) (momOf m2 z) =
      (s : ℝ) * G (Function.update f (σ 0) fun _ => x) y z := by
    intro x y hy z hz
    have := dens4_scattering (Ms := Ms) (v := Function.update f (σ 0) fun _ => x) d.scat hP d.masses σ hσ
      E y z hEm hy.le hz.le
    rw [← hm0, hpE, ← hup x] at this
    exact this
  have hsup : ∀ v y z, G v y z ≠ 0 → m1 ≤ y ∧ m2 ≤ z := by
    intro v y z h
    have h1 := (rateBoxed_support h).1 (σ 1)
    have h2 := (rateBoxed_support h).1 (σ 2)
    rw [place2_apply] at h1 h2
    exact ⟨h1, h2⟩
  have i0 : ∫ y in Set.Ioi m1, ∫ z in Set.Ioi m2,
      dens4 (viewOf r σ s) (viewMs Ms σ) (Function.update F 0 fun _ => 0) c p (momOf m1 y) (momOf m2 z) =
      (s : ℝ) * ∫ y, ∫ z, G (Function.update f (σ 0) fun _ => 0) y z := by
    rw [← setIntegral_all2 _ _ _ (hsup _), ← integral_const_mul]
    apply setIntegral_congr_fun measurableSet_Ioi
    intro y hy
    dsimp only
    rw [← integral_const_mul]
    apply setIntegral_congr_fun measurableSet_Ioi
    intro z hz
    exact hdens _ y hy z hz
  have i1 : ∫ y in Set.Ioi m1, ∫ z in Set.Ioi m2,
      (dens4 (viewOf r σ s) (viewMs Ms σ) (Function.update F 0 fun _ => 1) c p (momOf m1 y) (momOf m2 z) -
      dens4 (viewOf r σ s) (viewMs Ms σ) (Function.update F 0 fun _ => 0) c p (momOf m1 y) (momOf m2 z)) =
      (s : ℝ) * ∫ y, ∫ z, (G (Function.update f (σ 0) fun _ => 1) y z - G (Function.update f (σ 0) fun _ => 0) y z) := by
    rw [← setIntegral_all2 m1 m2, ← integral_const_mul]
    · apply setIntegral_congr_fun measurableSet_Ioi
      intro y hy
      dsimp only
      rw [← integral_const_mul]
      apply setIntegral_congr_fun measurableSet_Ioi
      intro z hz
      change dens4 _ _ _ _ _ _ _ - dens4 _ _ _ _ _ _ _ = _
      rw [hdens _ y hy z hz, hdens _ y hy z hz]
      ring
    · intro y z h
      by_cases h1 : G (Function.update f (σ 0) fun _ => 1) y z = 0
      · exact hsup (Function.update f (σ 0) fun _ => 0) y z fun h0 => h (by rw [h0, h1, sub_zero])
      · exact hsup _ y z h1
  rw [i0, i1]
  have np : ∀ x : ℝ, Nice3 fun a b c => rateBoxed r Ms (Function.update f (σ 0) fun _ => x) P (r (σ 0)).side
      (place2 σ a b c) := fun x => (place2_total _ (d.nice (σ 0) x _ ht) σ hσ).1
  have hlin := nice2_affine ((np 0).slice E) ((np 1).slice E) (f (σ 0) p)
  have hpt : ∀ y z, G f y z = G (Function.update f (σ 0) fun _ => 0) y z + f (σ 0) p *
      (G (Function.update f (σ 0) fun _ => 1) y z - G (Function.update f (σ 0) fun _ => 0) y z) := by
    intro y z
    have := rateBoxed_affine (r := r) (Ms := Ms) (v := f) (P := P) (r (σ 0)).side (σ 0) (place2 σ E y z)
    rw [show place2 σ E y z (σ 0) = E from place2_apply σ E y z 0, ← hm0, hpE] at this
    exact this
  change _ = (s : ℝ) * ((p * E)⁻¹ * ∫ y, ∫ z, G f y z)
  simp only [hpt]
  change (∫ y, ∫ z, (G (Function.update f (σ 0) fun _ => 0) y z + f (σ 0) p *
      (G (Function.update f (σ 0) fun _ => 1) y z - G (Function.update f (σ 0) fun _ => 0) y z))) =
      (∫ y, ∫ z, G (Function.update f (σ 0) fun _ => 0) y z) + f (σ 0) p *
      ∫ y, ∫ z, (G (Function.update f (σ 0) fun _ => 1) y z - G (Function.update f (σ 0) fun _ => 0) y z) at hlin
  rw [hlin]
  ring

/-- The weighted total of the collision integral of one of the particles. -/
theorem scat_one (d : Scatter4 r Ms f) (hP : ∀ i, 0 ≤ P i) (σ : Equiv.Perm (Fin 4)) (hσ : σ 1 = mate (σ 0))
    (hthr : (r (σ 2)).specie.m + (r (σ 3)).specie.m - (r (σ 0)).specie.m ≤ P (σ 1)) (max3 : ℝ) (dflt : ℝ × ℝ)
    (q : ℝ → ℝ) (hq : Measurable q) (hqb : ∀ S, ∃ C, ∀ E, |E| ≤ S → |q E| ≤ C) :
    let X : ℤ → ℝ → ℝ := fun k p =>
      valOf (exactQuad4 (viewOf r σ (-(r (σ 0)).side)) (viewMs Ms σ) k max3 dflt p
        (scatMin1 (loopCtx4 (viewOf r σ (-(r (σ 0)).side)) max3) p) (P (σ 1)))
    IntegrableOn (fun p => p ^ 2 * q (energyOf (r (σ 0)).specie.m p) * (X 1 p + f (σ 0) p * X 2 p))
      (Set.Ioc 0 (P (σ 0))) ∧
    ∫ p in Set.Ioc 0 (P (σ 0)), p ^ 2 * q (energyOf (r (σ 0)).specie.m p) * (X 1 p + f (σ 0) p * X 2 p) =
      ((-(r (σ 0)).side : ℤ) : ℝ) * ∫ a, q a * ∫ b, ∫ c, rateBoxed r Ms f P (r (σ 0)).side (place2 σ a b c) := by
  intro X
  have hI : ∀ p, 0 < p → p ≤ P (σ 0) → X 1 p + f (σ 0) p * X 2 p = (p * energyOf (r (σ 0)).specie.m p)⁻¹ *
      (fun E => ((-(r (σ 0)).side : ℤ) : ℝ) * ∫ b, ∫ c, rateBoxed r Ms f P (r (σ 0)).side (place2 σ E b c))
        (energyOf (r (σ 0)).specie.m p) := by
    intro p hp hpP
    refine (value_scattering d hP σ hσ hthr max3 dflt p hp hpP).trans ?_
    dsimp only
    ring
  have hint := (view_total (d.nice' (P := P) (r (σ 0)).side (d.scat.sides (σ 0))) q (hq) hqb σ hσ).1
  set W : ℝ → ℝ := fun E => ((-(r (σ 0)).side : ℤ) : ℝ) * ∫ b, ∫ c, rateBoxed r Ms f P (r (σ 0)).side (place2 σ E b c)
    with hW
  have eW : (fun E => q E * W E) = fun E => ((-(r (σ 0)).side : ℤ) : ℝ) *
      (q E * ∫ b, ∫ c, rateBoxed r Ms f P (r (σ 0)).side (place2 σ E b c)) := by
    funext E
    rw [hW]
    ring
  have hint' : Integrable fun E => q E * W E := by
    rw [eW]
    exact hint.const_mul _
  have hW0 : ∀ E, ¬ ((r (σ 0)).specie.m ≤ E ∧ E ≤ energyOf (r (σ 0)).specie.m (P (σ 0))) → W E = 0 := by
    intro E hE
    have : ∀ b c, rateBoxed r Ms f P (r (σ 0)).side (place2 σ E b c) = 0 := by
      intro b c
      by_contra he
      obtain ⟨x, y⟩ := rateBoxed_support he
      have x' := x (σ 0)
      have y' := y (σ 0) rfl
      rw [place2_apply] at x' y'
      exact hE ⟨x', y'⟩
    rw [hW]
    simp only [this, integral_zero, mul_zero]
  obtain ⟨j0, t0⟩ := weighted4 _ (d.masses (σ 0)) (fun p => if p ≤ P (σ 0) then X 1 p + f (σ 0) p * X 2 p else 0) W q
    (by
      intro p hp
      by_cases h : p ≤ P (σ 0)
      · rw [if_pos h, hI p hp h]
      · rw [if_neg h, hW0, mul_zero]
        rintro ⟨a, b⟩
        apply h
        rw [← momOf_energyOf (r (σ 0)).specie.m p hp.le]
        exact (momOf_le _ _ _ (d.masses (σ 0)) a (hP (σ 0))).mpr b)
    hint' (fun E hE => hW0 E fun h => absurd h.1 (not_le.mpr hE))
  have hsub : Set.Ioi (0 : ℝ) ∩ Set.Ioc 0 (P (σ 0)) = Set.Ioc 0 (P (σ 0)) := Set.inter_eq_right.mpr fun x hx => hx.1
  have hind : ∀ p ∈ Set.Ioi (0 : ℝ), p ^ 2 * q (energyOf (r (σ 0)).specie.m p) *
      (if p ≤ P (σ 0) then X 1 p + f (σ 0) p * X 2 p else 0) = (Set.Ioc 0 (P (σ 0))).indicator (fun p =>
        p ^ 2 * q (energyOf (r (σ 0)).specie.m p) * (X 1 p + f (σ 0) p * X 2 p)) p := by
    intro p hp
    by_cases h : p ≤ P (σ 0)
    · rw [if_pos h, Set.indicator_of_mem (show p ∈ Set.Ioc 0 (P (σ 0)) from ⟨hp, h⟩)]
    · rw [if_neg h, Set.indicator_of_notMem fun hmem => h hmem.2, mul_zero]
  constructor
  · have := (IntegrableOn.congr_fun j0 hind measurableSet_Ioi).mono_set
      (t := Set.Ioi 0) (s := Set.Ioc 0 (P (σ 0))) fun x hx => hx.1
    refine IntegrableOn.congr_fun this (fun x hx => ?_) measurableSet_Ioc
    rw [Set.indicator_of_mem hx]
  · rw [← integral_const_mul, ← eW, ← t0, setIntegral_congr_fun measurableSet_Ioi hind,
      setIntegral_indicator measurableSet_Ioc, hsub]

theorem arrayScat (s : Fin 4 → Reactant) (Ms : List CM) (kind : ℤ) (min1 max1 min2 max2 max3 : ℝ)
    (hT : reactionTypeSum [s 0, s 1, s 2, s 3] = 0) (h0 : 0 ≤ max1)
    (hthr : 3 * ((s 2).specie.m + (s 3).specie.m - (s 0).specie.m) ≤ max1) (ps : List ℝ) (sched : List (List ℕ))
    (hsch : ValidSchedule ps.length sched) :
    integration4Exact s Ms kind ps min1 max1 min2 max2 max3 sched =
      .ok (ps.map fun p => valOf (exactQuad4 s Ms kind max3 (min2, max2) p (scatMin1 (loopCtx4 s max3) p) max1)) := by
  unfold integration4Exact
  rw [C40_scattering_partial _ hT _ _ _ _ (fun p _ => ?_) _ hsch]
  · apply mapM_ok_map
    intro p _
    rfl
  · have := scatMin1_le (loopCtx4 s max3) p
    change _ ≤ max 0 ((s 2).specie.m + (s 3).specie.m - (s 0).specie.m) at this
    rcases max_cases 0 ((s 2).specie.m + (s 3).specie.m - (s 0).specie.m) with ⟨h, -⟩ | ⟨h, -⟩ <;> rw [h] at this <;>
      linarith

/-- The arrays of the four species, each computed from its own view of the reaction with its partner's momenta up to
the end of the partner's grid, are samples of `A` and `B`. -/
def SamplesScat (r : Fin 4 → Reactant) (Ms : List CM) (σ : Fin 4 → Equiv.Perm (Fin 4)) (P : Fin 4 → ℝ)
    (min1 min2 max2 max3 : Fin 4 → ℝ) (A B : Fin 4 → ℝ → ℝ) : Prop :=
  ∀ (i : Fin 4) (ps : List ℝ) (sched : List (List ℕ)), ValidSchedule ps.length sched →
    integration4Exact (viewOf r (σ i) (-(r i).side)) (viewMs Ms (σ i)) 1 ps (min1 i) (P (σ i 1)) (min2 i) (max2 i)
      (max3 i) sched = .ok (ps.map (A i)) ∧
    integration4Exact (viewOf r (σ i) (-(r i).side)) (viewMs Ms (σ i)) 2 ps (min1 i) (P (σ i 1)) (min2 i) (max2 i)
      (max3 i) sched = .ok (ps.map (B i))

open Classical in
/-- **C104, totals.** For `a + b → c + d` with arbitrary spectra: the weighted totals of the four collision integrals
`A + f B`, each up to the end of its grid, add up to an integral over all events.  Particles `a` and `b` count the
events in which both are inside their grids; `c` and `d` those in which both of them are. -/
theorem C104_totals (d : Scatter4 r Ms f) (hP : ∀ i, 0 ≤ P i) (σ : Fin 4 → Equiv.Perm (Fin 4)) (h0 : ∀ i, σ i 0 = i)
    (h1 : ∀ i, σ i 1 = mate i)
    (hthr : ∀ i, 3 * ((r (σ i 2)).specie.m + (r (σ i 3)).specie.m - (r i).specie.m) ≤ P (mate i))
    (min1 min2 max2 max3 : Fin 4 → ℝ) :
    ∃ A B : Fin 4 → ℝ → ℝ, SamplesScat r Ms σ P min1 min2 max2 max3 A B ∧
      ∀ q : Fin 4 → ℝ → ℝ, (∀ i, Measurable (q i)) → (∀ S, ∃ C, ∀ i E, |E| ≤ S → |q i E| ≤ C) →
        (∀ i, IntegrableOn (fun p => p ^ 2 * q i (energyOf (r i).specie.m p) * (A i p + f i p * B i p))
          (Set.Ioc 0 (P i))) ∧
        ∑ i, ∫ p in Set.Ioc 0 (P i), p ^ 2 * q i (energyOf (r i).specie.m p) * (A i p + f i p * B i p) =
        ∫ x, ∫ y, ∫ z, ((if x ≤ energyOf (r 0).specie.m (P 0) ∧ y ≤ energyOf (r 1).specie.m (P 1)
            then q 0 x + q 1 y else 0) -
          (if z ≤ energyOf (r 2).specie.m (P 2) ∧ x + y - z ≤ energyOf (r 3).specie.m (P 3)
            then q 2 z + q 3 (x + y - z) else 0)) * rate4 r Ms f ![x, y, z, x + y - z] := by
  let X : ℤ → Fin 4 → ℝ → ℝ := fun k i p =>
    valOf (exactQuad4 (viewOf r (σ i) (-(r i).side)) (viewMs Ms (σ i)) k (max3 i) (min2 i, max2 i) p
      (scatMin1 (loopCtx4 (viewOf r (σ i) (-(r i).side)) (max3 i)) p) (P (σ i 1)))
  have hσ : ∀ i, σ i 1 = mate (σ i 0) := fun i => by rw [h0, h1]
  refine ⟨X 1, X 2, ?_, ?_⟩
  · intro i ps sched hsch
    obtain ⟨t0, t1, t2, t3⟩ := view_sides2 d.scat (σ i) (hσ i)
    rw [h0] at t0 t1 t2 t3
    have hT : reactionTypeSum [viewOf r (σ i) (-(r i).side) 0, viewOf r (σ i) (-(r i).side) 1,
        viewOf r (σ i) (-(r i).side) 2, viewOf r (σ i) (-(r i).side) 3] = 0 := by
      simp [reactionTypeSum, t0, t1, t2, t3]
    have hq : 3 * ((r (σ i 2)).specie.m + (r (σ i 3)).specie.m - (r (σ i 0)).specie.m) ≤ P (σ i 1) := by
      rw [h0, h1]; exact hthr i
    exact ⟨arrayScat _ _ _ _ _ _ _ _ hT (hP _) hq _ _ hsch, arrayScat _ _ _ _ _ _ _ _ hT (hP _) hq _ _ hsch⟩
  · intro q hq hqb
    have hqb' : ∀ i S, ∃ C, ∀ E, |E| ≤ S → |q i E| ≤ C := fun i S => by
      obtain ⟨C, hC⟩ := hqb S; exact ⟨C, hC i⟩
    have one : ∀ i,
        IntegrableOn (fun p => p ^ 2 * q i (energyOf (r i).specie.m p) * (X 1 i p + f i p * X 2 i p))
          (Set.Ioc 0 (P i)) ∧
        ∫ p in Set.Ioc 0 (P i), p ^ 2 * q i (energyOf (r i).specie.m p) * (X 1 i p + f i p * X 2 i p) =
          ((-(r i).side : ℤ) : ℝ) * ∫ a, q i a * ∫ b, ∫ c, rateBoxed r Ms f P (r i).side (place2 (σ i) a b c) := by
      intro i
      have := scat_one d hP (σ i) (hσ i) (by
        have a := hthr i
        have b := hP (mate i)
        rw [h1, h0]
        by_cases h : (r (σ i 2)).specie.m + (r (σ i 3)).specie.m - (r i).specie.m ≤ 0
        · linarith
        · linarith) (max3 i) (min2 i, max2 i) (q i) (hq i) (hqb' i)
      rw [h0 i] at this
      exact this
    refine ⟨fun i => (one i).1, ?_⟩
    have key := totals_scat (d.nice' (P := P) (-1) (Or.inr rfl)) (d.nice' (P := P) 1 (Or.inl rfl)) q hq hqb σ h0 h1
    rw [Fin.sum_univ_four, (one 0).2, (one 1).2, (one 2).2, (one 3).2, d.scat.left0, d.scat.left1, d.scat.right2,
      d.scat.right3]
    have e : ∀ a b c e : ℝ, ((-(-1) : ℤ) : ℝ) * a + ((-(-1) : ℤ) : ℝ) * b + ((-1 : ℤ) : ℝ) * c + ((-1 : ℤ) : ℝ) * e =
        a + b - c - e := by
      intro a b c e
      push_cast; ring
    rw [e, key]
    congr 1
    funext x
    congr 1
    funext y
    congr 1
    funext z
    have gL : InGrids r P (-1) (conserve2 x y z) ↔
        x ≤ energyOf (r 0).specie.m (P 0) ∧ y ≤ energyOf (r 1).specie.m (P 1) := by
      constructor
      · intro h
        exact ⟨h 0 d.scat.left0, h 1 d.scat.left1⟩
      · rintro ⟨a, b⟩ i hi
        fin_cases i
        · exact a
        · exact b
        · change (r 2).side = -1 at hi
          rw [d.scat.right2] at hi; norm_num at hi
        · change (r 3).side = -1 at hi
          rw [d.scat.right3] at hi; norm_num at hi
    have gR : InGrids r P 1 (conserve2 x y z) ↔
        z ≤ energyOf (r 2).specie.m (P 2) ∧ x + y - z ≤ energyOf (r 3).specie.m (P 3) := by
      constructor
      · intro h
        exact ⟨h 2 d.scat.right2, h 3 d.scat.right3⟩
      · rintro ⟨a, b⟩ i hi
        fin_cases i
        · change (r 0).side = 1 at hi
          rw [d.scat.left0] at hi; norm_num at hi
        · change (r 1).side = 1 at hi
          rw [d.scat.left1] at hi; norm_num at hi
        · exact a
        · exact b
    unfold rateBoxed
    change _ = _ * rate4 r Ms f (conserve2 x y z)
    by_cases a : x ≤ energyOf (r 0).specie.m (P 0) ∧ y ≤ energyOf (r 1).specie.m (P 1)
    · rw [if_pos (gL.mpr a), if_pos a]
      by_cases b : z ≤ energyOf (r 2).specie.m (P 2) ∧ x + y - z ≤ energyOf (r 3).specie.m (P 3)
      · rw [if_pos (gR.mpr b), if_pos b]; ring
      · rw [if_neg fun h => b (gR.mp h), if_neg b]; ring
    · rw [if_neg fun h => a (gL.mp h), if_neg a]
      by_cases b : z ≤ energyOf (r 2).specie.m (P 2) ∧ x + y - z ≤ energyOf (r 3).specie.m (P 3)
      · rw [if_pos (gR.mpr b), if_pos b]; ring
      · rw [if_neg fun h => b (gR.mp h), if_neg b]; ring

/-- No event is inside the grids of one side only. -/
def Confined (r : Fin 4 → Reactant) (f : Fin 4 → ℝ → ℝ) (P : Fin 4 → ℝ) : Prop :=
  ∀ e : Fin 4 → ℝ, e 0 + e 1 = e 2 + e 3 → (∀ i, (r i).specie.m ≤ e i) →
    netFlux4 r (fun i => f i (momOf (r i).specie.m (e i))) ≠ 0 →
    (e 0 ≤ energyOf (r 0).specie.m (P 0) ∧ e 1 ≤ energyOf (r 1).specie.m (P 1) ↔
      e 2 ≤ energyOf (r 2).specie.m (P 2) ∧ e 3 ≤ energyOf (r 3).specie.m (P 3))

theorem integral_zero3 {F : ℝ → ℝ → ℝ → ℝ} (h : ∀ x y z, F x y z = 0) : ∫ x, ∫ y, ∫ z, F x y z = 0 := by
  simp only [h, integral_zero]

/-- **C104, conservation.** Particles on the same side of `a + b → c + d` are gained and lost together, whatever the
grids and the spectra.  If no event is inside the grids of one side only, whatever is additive in the reaction is
conserved; in particular each `a` lost is one `c` and one `d` gained, and the energy of the four species together
does not change. -/
theorem C104_conservation (d : Scatter4 r Ms f) (hP : ∀ i, 0 ≤ P i) (σ : Fin 4 → Equiv.Perm (Fin 4))
    (h0 : ∀ i, σ i 0 = i) (h1 : ∀ i, σ i 1 = mate i)
    (hthr : ∀ i, 3 * ((r (σ i 2)).specie.m + (r (σ i 3)).specie.m - (r i).specie.m) ≤ P (mate i))
    (min1 min2 max2 max3 : Fin 4 → ℝ) :
    ∃ A B : Fin 4 → ℝ → ℝ, SamplesScat r Ms σ P min1 min2 max2 max3 A B ∧
      ((∫ p in Set.Ioc 0 (P 0), p ^ 2 * (A 0 p + f 0 p * B 0 p)) =
        ∫ p in Set.Ioc 0 (P 1), p ^ 2 * (A 1 p + f 1 p * B 1 p)) ∧
      ((∫ p in Set.Ioc 0 (P 2), p ^ 2 * (A 2 p + f 2 p * B 2 p)) =
        ∫ p in Set.Ioc 0 (P 3), p ^ 2 * (A 3 p + f 3 p * B 3 p)) ∧
      (Confined r f P →
        (∀ q : Fin 4 → ℝ → ℝ, (∀ i, Measurable (q i)) → (∀ S, ∃ C, ∀ i E, |E| ≤ S → |q i E| ≤ C) →
          (∀ x y z w, x + y = z + w → q 0 x + q 1 y = q 2 z + q 3 w) →
          ∑ i, ∫ p in Set.Ioc 0 (P i), p ^ 2 * q i (energyOf (r i).specie.m p) * (A i p + f i p * B i p) = 0) ∧
        ((∫ p in Set.Ioc 0 (P 2), p ^ 2 * (A 2 p + f 2 p * B 2 p)) =
          -∫ p in Set.Ioc 0 (P 0), p ^ 2 * (A 0 p + f 0 p * B 0 p)) ∧
        ∑ i, ∫ p in Set.Ioc 0 (P i), p ^ 2 * energyOf (r i).specie.m p * (A i p + f i p * B i p) = 0) := by
  obtain ⟨A, B, hs, ht⟩ := C104_totals d hP σ h0 h1 hthr min1 min2 max2 max3
  have cst : ∀ c : Fin 4 → ℝ, (∀ S : ℝ, ∃ C : ℝ, ∀ (i : Fin 4) (E : ℝ), |E| ≤ S → |(fun _ : ℝ => c i) E| ≤ C) := by
    intro c S
    refine ⟨∑ i, |c i|, fun i E _ => ?_⟩
    exact Finset.single_le_sum (f := fun i => |c i|) (fun j _ => abs_nonneg _) (Finset.mem_univ i)
  have num : ∀ c : Fin 4 → ℝ, ∑ i, ∫ p in Set.Ioc 0 (P i), p ^ 2 * c i * (A i p + f i p * B i p) =
      ∑ i, c i * ∫ p in Set.Ioc 0 (P i), p ^ 2 * (A i p + f i p * B i p) := by
    intro c
    apply Finset.sum_congr rfl
    intro i _
    rw [← integral_const_mul]
    congr 1
    funext p
    ring
  refine ⟨A, B, hs, ?_, ?_, ?_⟩
  · have h := (ht (fun i _ => ![1, -1, 0, 0] i) (fun _ => measurable_const) (cst _)).2
    rw [num, Fin.sum_univ_four, integral_zero3 (fun x y z => by simp)] at h
    simp only [Matrix.cons_val_zero, Matrix.cons_val_one, Matrix.cons_val] at h
    linarith
  · have h := (ht (fun i _ => ![0, 0, 1, -1] i) (fun _ => measurable_const) (cst _)).2
    rw [num, Fin.sum_univ_four, integral_zero3 (fun x y z => by simp)] at h
    simp only [Matrix.cons_val_zero, Matrix.cons_val_one, Matrix.cons_val] at h
    linarith
  · intro hc
    have key : ∀ q : Fin 4 → ℝ → ℝ, (∀ i, Measurable (q i)) → (∀ S, ∃ C, ∀ i E, |E| ≤ S → |q i E| ≤ C) →
        (∀ x y z w, x + y = z + w → q 0 x + q 1 y = q 2 z + q 3 w) →
        ∑ i, ∫ p in Set.Ioc 0 (P i), p ^ 2 * q i (energyOf (r i).specie.m p) * (A i p + f i p * B i p) = 0 := by
      intro q hq hqb hadd
      rw [(ht q hq hqb).2]
      apply integral_zero3
      intro x y z
      by_cases hr : rate4 r Ms f ![x, y, z, x + y - z] = 0
      · rw [hr, mul_zero]
      · have hm := rate4_support hr
        have hf : netFlux4 r (fun i => f i (momOf (r i).specie.m ((![x, y, z, x + y - z] : Fin 4 → ℝ) i))) ≠ 0 := by
          intro hz
          apply hr
          unfold rate4
          rw [if_pos hm, hz, mul_zero]
        have hg := hc ![x, y, z, x + y - z] (by change x + y = z + (x + y - z); ring) hm hf
        change (x ≤ _ ∧ y ≤ _ ↔ z ≤ _ ∧ x + y - z ≤ _) at hg
        have ha := hadd x y z (x + y - z) (by ring)
        by_cases a : x ≤ energyOf (r 0).specie.m (P 0) ∧ y ≤ energyOf (r 1).specie.m (P 1)
        · rw [if_pos a, if_pos (hg.mp a), ha, sub_self, zero_mul]
        · rw [if_neg a, if_neg fun h => a (hg.mpr h), sub_self, zero_mul]
    refine ⟨key, ?_, ?_⟩
    · have h := key (fun i _ => ![1, 0, 1, 0] i) (fun _ => measurable_const) (cst _)
        (fun x y z w _ => by simp)
      rw [num, Fin.sum_univ_four] at h
      simp only [Matrix.cons_val_zero, Matrix.cons_val_one, Matrix.cons_val] at h
      linarith
    · exact key (fun _ E => E) (fun _ => measurable_id) (fun S => ⟨S, fun _ _ h => h⟩) (fun _ _ _ _ h => h)

theorem energyOf_mono (m p q : ℝ) (hp : 0 ≤ p) (h : p ≤ q) : energyOf m p ≤ energyOf m q := by
  unfold energyOf
  apply Real.sqrt_le_sqrt
  have := pow_le_pow_left₀ hp h 2
  linarith

theorem flux_support (t : ℤ) (x : Fin 4 → ℝ) (h : flux r x t ≠ 0) (i : Fin 4) (hi : (r i).side = t) : x i ≠ 0 := by
  unfold flux at h
  have := Finset.prod_ne_zero_iff.mp h i (Finset.mem_univ i)
  rw [if_pos hi] at this
  exact this

/-- **C104, confined spectra.** If the spectra vanish above momenta `Q` and every grid reaches the largest energy a
particle can obtain from a pair of particles below `Q`, no event is inside the grids of one side only. -/
theorem C104_confined (hr : Sides4 r) (hm : ∀ i, 0 ≤ (r i).specie.m) (Q : Fin 4 → ℝ) (hQ : ∀ i, 0 ≤ Q i)
    (hf : ∀ i p, Q i < p → f i p = 0)
    (hL : ∀ i, energyOf (r 0).specie.m (Q 0) + energyOf (r 1).specie.m (Q 1) - (r (mate i)).specie.m ≤
      energyOf (r i).specie.m (P i))
    (hR : ∀ i, energyOf (r 2).specie.m (Q 2) + energyOf (r 3).specie.m (Q 3) - (r (mate i)).specie.m ≤
      energyOf (r i).specie.m (P i)) : Confined r f P := by
  intro e he hme hne
  have hlow : ∀ i, f i (momOf (r i).specie.m (e i)) ≠ 0 → e i ≤ energyOf (r i).specie.m (Q i) := by
    intro i h
    rw [← momOf_le _ _ _ (hm i) (hme i) (hQ i)]
    by_contra hn
    exact h (hf i _ (not_le.mp hn))
  have htot : e 0 + e 1 ≤ energyOf (r 0).specie.m (Q 0) + energyOf (r 1).specie.m (Q 1) ∨
      e 0 + e 1 ≤ energyOf (r 2).specie.m (Q 2) + energyOf (r 3).specie.m (Q 3) := by
    by_cases h : flux r (fun i => f i (momOf (r i).specie.m (e i))) 1 = 0
    · left
      have h' : flux r (fun i => f i (momOf (r i).specie.m (e i))) (-1) ≠ 0 := by
        intro h'
        apply hne
        unfold netFlux4
        rw [h, h', sub_zero]
      have a := hlow 0 (flux_support _ _ h' 0 hr.left0)
      have b := hlow 1 (flux_support _ _ h' 1 hr.left1)
      linarith
    · right
      have a := hlow 2 (flux_support _ _ h 2 hr.right2)
      have b := hlow 3 (flux_support _ _ h 3 hr.right3)
      linarith
  have m0 := hme 0
  have m1 := hme 1
  have m2 := hme 2
  have m3 := hme 3
  have l0 : _ - (r 1).specie.m ≤ _ := hL 0
  have l1 : _ - (r 0).specie.m ≤ _ := hL 1
  have l2 : _ - (r 3).specie.m ≤ _ := hL 2
  have l3 : _ - (r 2).specie.m ≤ _ := hL 3
  have r0 : _ - (r 1).specie.m ≤ _ := hR 0
  have r1 : _ - (r 0).specie.m ≤ _ := hR 1
  have r2 : _ - (r 3).specie.m ≤ _ := hR 2
  have r3 : _ - (r 2).specie.m ≤ _ := hR 3
  have k : e 0 ≤ energyOf (r 0).specie.m (P 0) ∧ e 1 ≤ energyOf (r 1).specie.m (P 1) := by
    rcases htot with h | h <;> exact ⟨by linarith, by linarith⟩
  have k' : e 2 ≤ energyOf (r 2).specie.m (P 2) ∧ e 3 ≤ energyOf (r 3).specie.m (P 3) := by
    rcases htot with h | h <;> exact ⟨by linarith, by linarith⟩
  exact ⟨fun _ => k', fun _ => k⟩

end

/-- What C104 says about the collision integrals `I` of the four species. -/
def Balanced (m P : Fin 4 → ℝ) (I : Fin 4 → ℝ → ℝ) (confined : Prop) : Prop :=
  ((∫ p in Set.Ioc 0 (P 0), p ^ 2 * I 0 p) = ∫ p in Set.Ioc 0 (P 1), p ^ 2 * I 1 p) ∧
  ((∫ p in Set.Ioc 0 (P 2), p ^ 2 * I 2 p) = ∫ p in Set.Ioc 0 (P 3), p ^ 2 * I 3 p) ∧
  (confined →
    ((∫ p in Set.Ioc 0 (P 2), p ^ 2 * I 2 p) = -∫ p in Set.Ioc 0 (P 0), p ^ 2 * I 0 p) ∧
    ∑ i, ∫ p in Set.Ioc 0 (P i), p ^ 2 * energyOf (m i) p * I i p = 0)

/-- **C104 for regular spectra.** -/
theorem C104_spectra (r : Fin 4 → Reactant) (Ms : List CM) (P : Fin 4 → ℝ) (hr : Sides4 r)
    (hm : ∀ i, 0 ≤ (r i).specie.m) (hP : ∀ i, 0 ≤ P i)
    (heta : ∀ i, (r i).specie.eta = 1 ∨ (r i).specie.eta = -1) (hreg : ∀ i, Regular (r i).specie)
    (hMs : Ms ≠ []) (hK : ∀ M ∈ Ms, M.K = 0) (ho : ∀ M ∈ Ms, M.order.Bijective)
    (σ : Fin 4 → Equiv.Perm (Fin 4)) (h0 : ∀ i, σ i 0 = i) (h1 : ∀ i, σ i 1 = mate i)
    (hthr : ∀ i, 3 * ((r (σ i 2)).specie.m + (r (σ i 3)).specie.m - (r i).specie.m) ≤ P (mate i))
    (min1 min2 max2 max3 : Fin 4 → ℝ) :
    ∃ f A B : Fin 4 → ℝ → ℝ, (∀ i p, 0 ≤ p → occAt (r i).specie p = .ok (f i p)) ∧
      SamplesScat r Ms σ P min1 min2 max2 max3 A B ∧
      Balanced (fun i => (r i).specie.m) P (fun i p => A i p + f i p * B i p) (Confined r f P) := by
  choose f B hf h using hreg
  have hB : ∀ i, 0 ≤ B i := fun i => (h i 0 le_rfl).2.1.trans (h i 0 le_rfl).2.2
  have d : Scatter4 r Ms f :=
    { scat := hr, masses := hm, eta := heta
      occ := fun i p hp => (h i p hp).1
      nonneg := fun i p hp => (h i p hp).2.1
      meas := hf
      bdd := ⟨∑ i, B i, fun i p hp => (h i p hp).2.2.trans
        (Finset.single_le_sum (fun j _ => hB j) (Finset.mem_univ i))⟩
      some := hMs, plain := hK, order := ho }
  obtain ⟨A, B, k1, k2, k3, k4⟩ := C104_conservation d hP σ h0 h1 hthr min1 min2 max2 max3
  exact ⟨f, A, B, d.occ, k1, k2, k3, fun hc => (k4 hc).2⟩

section Example
/-- `a + b → c + d`: fermions of masses 1, 0, 1, 0 with stored spectra that end at momentum 2. -/
private noncomputable def scatDemo : Fin 4 → Reactant := fun i =>
  ⟨⟨1, ![1, 0, 1, 0] i, [0, 1, 2], ![[1/2, 1/4, 0], [1/3, 1/3, 0], [1/8, 1/7, 0], [1/5, 1/9, 0]] i, false, 1⟩, ![-1, -1, 1, 1] i⟩

private theorem scatDemo_regular (i : Fin 4) : Regular (scatDemo i).specie := by
  refine regular_stored _ [1, 2] rfl rfl (by norm_num [scatDemo]) ?_ ?_ (Or.inl rfl) ?_ <;>
  fin_cases i <;> first | rfl | norm_num [scatDemo]

/-- The collision integrals of the demonstration scattering on grids up to momentum 6. -/
example : ∃ f A B : Fin 4 → ℝ → ℝ,
    integration4Exact scatDemo [⟨id, 1, 2, 0⟩] 1 [0, 1, 3] 0 6 0 6 6 [[2, 0], [1]] = .ok [A 0 0, A 0 1, A 0 3] ∧
    (∫ p in Set.Ioc 0 6, p ^ 2 * (A 0 p + f 0 p * B 0 p)) = ∫ p in Set.Ioc 0 6, p ^ 2 * (A 1 p + f 1 p * B 1 p) := by
  obtain ⟨f, A, B, -, hI, h, -⟩ := C104_spectra scatDemo [⟨id, 1, 2, 0⟩] (fun _ => 6)
    ⟨rfl, rfl, rfl, rfl⟩ (fun i => by fin_cases i <;> norm_num [scatDemo]) (by norm_num)
    (fun i => by fin_cases i <;> exact Or.inl rfl) scatDemo_regular (by simp) (by simp)
    (fun M hM => by rw [List.mem_singleton.mp hM]; exact Function.bijective_id)
    ![1, Equiv.swap 0 1, Equiv.swap 0 2 * Equiv.swap 1 3, Equiv.swap 0 3 * Equiv.swap 1 2]
    (by decide) (by intro i; fin_cases i <;> decide)
    (fun i => by
      have : ∀ j, (scatDemo j).specie.m ≤ 1 ∧ 0 ≤ (scatDemo j).specie.m := by
        intro j; fin_cases j <;> norm_num [scatDemo]
      have a := this i
      have b := fun k => this ((![1, Equiv.swap 0 1, Equiv.swap 0 2 * Equiv.swap 1 3, Equiv.swap 0 3 * Equiv.swap 1 2] :
        Fin 4 → Equiv.Perm (Fin 4)) i k)
      linarith [(b 2).1, (b 3).1, a.2])
    (fun _ => 0) (fun _ => 0) (fun _ => 6) (fun _ => 6)
  refine ⟨f, A, B, ?_, h⟩
  have := (hI 0 [0, 1, 3] [[2, 0], [1]] (by change [2, 0, 1].Perm [0, 1, 2]; decide)).1
  have e : viewOf scatDemo 1 (-(scatDemo 0).side) = scatDemo := by
    funext j
    change (⟨(scatDemo j).specie, -(-1) * (scatDemo j).side⟩ : Reactant) = _
    rw [neg_neg, one_mul]
  have e' : viewMs [⟨id, 1, 2, 0⟩] 1 = [⟨id, 1, 2, 0⟩] := rfl
  exact (e' ▸ e ▸ this)

/-- Grids up to momentum 6 confine spectra which end at momentum 2. -/
example (f : Fin 4 → ℝ → ℝ) (hf : ∀ i p, 2 < p → f i p = 0) : Confined scatDemo f (fun _ => 6) := by
  have e0 : ∀ p : ℝ, 0 ≤ p → energyOf 0 p = p := fun p hp => by unfold energyOf; simp [Real.sqrt_sq hp]
  have e2 : energyOf 1 2 ≤ 3 := by
    unfold energyOf; rw [Real.sqrt_le_left (by norm_num)]; norm_num
  have e6 : ∀ i, 6 ≤ energyOf (scatDemo i).specie.m 6 := fun i => by
    unfold energyOf; apply Real.le_sqrt_of_sq_le; nlinarith [sq_nonneg (scatDemo i).specie.m]
  have m : ∀ i, 0 ≤ (scatDemo i).specie.m := fun i => by fin_cases i <;> norm_num [scatDemo]
  refine C104_confined ⟨rfl, rfl, rfl, rfl⟩ m (fun _ => 2) (fun _ => by norm_num) hf ?_ ?_ <;> intro i
  · change energyOf 1 2 + energyOf 0 2 - _ ≤ _
    linarith [e0 2 (by norm_num), m (mate i), e6 i]
  · change energyOf 1 2 + energyOf 0 2 - _ ≤ _
    linarith [e0 2 (by norm_num), m (mate i), e6 i]
end Example

end PyBBN
