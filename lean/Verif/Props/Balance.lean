import Verif.Props.Exchange
import Verif.Lemmas.Phase
/-!
# C93: a two-body decay and its inverse conserve particle numbers and energy

The three species of `X → a + b` compute their collision integrals separately.  Specification: the number
of particles (`∫ p² … dp`) lost by `X` up to the end `P` of its momentum grid is gained by `a` and by `b`, and the
energy lost by `X` is gained by `a` and `b` together, for arbitrary spectra.
-/
namespace PyBBN
open MeasureTheory

/-- Strict triangle inequalities. -/
def Tri (x y z : ℝ) : Prop := x < y + z ∧ y < x + z ∧ z < x + y

/-- Creation minus destruction. -/
noncomputable def netFlux (s : Fin 3 → Reactant) (f : Fin 3 → ℝ) : ℝ := flux s f 1 - flux s f (-1)

/-- Real recoil and strict triangle for the momenta of the code. -/
def Ok3 (s : Fin 3 → Reactant) (p0 p1 : ℝ) : Prop :=
  (s 2).specie.m ≤ lastEnergy3 s p0 p1 ∧
    (p0 - p1) ^ 2 < lastEnergy3 s p0 p1 ^ 2 - (s 2).specie.m ^ 2 ∧
    lastEnergy3 s p0 p1 ^ 2 - (s 2).specie.m ^ 2 < (p0 + p1) ^ 2

open Classical in
/-- Integrand without the Jacobian. -/
noncomputable def dens3 (s : Fin 3 → Reactant) (F : Fin 3 → ℝ → ℝ) (cut : ℝ → ℝ → Prop) (p0 p1 : ℝ) : ℝ :=
  if Ok3 s p0 p1 ∧ cut p0 p1 then 2 * netFlux s (fun i => F i (momenta3 s p0 p1 i)) else 0

theorem tri_iff {p q s : ℝ} (hp : 0 < p) (hq : 0 < q) (hs : 0 ≤ s) :
    (p - q) ^ 2 < s ∧ s < (p + q) ^ 2 ↔ Tri p q (√s) := by
  have h := Real.sqrt_nonneg s
  have h2 := Real.sq_sqrt hs
  set t := √s
  unfold Tri
  rw [← h2, sq_lt_sq₀ h (by positivity), sq_lt_sq, abs_of_nonneg h, abs_lt]
  constructor
  · rintro ⟨⟨a, b⟩, c⟩; exact ⟨by linarith, by linarith, by linarith⟩
  · rintro ⟨a, b, c⟩; exact ⟨⟨by linarith, by linarith⟩, by linarith⟩

theorem ok3_iff (s : Fin 3 → Reactant) (p0 p1 : ℝ) (h0 : 0 < p0) (h1 : 0 < p1) (hm : 0 ≤ (s 2).specie.m) :
    Ok3 s p0 p1 ↔ (s 2).specie.m < lastEnergy3 s p0 p1 ∧
      Tri p0 p1 (momOf (s 2).specie.m (lastEnergy3 s p0 p1)) := by
  unfold Ok3 momOf
  constructor
  · rintro ⟨a, b, c⟩
    have hpos : 0 < lastEnergy3 s p0 p1 ^ 2 - (s 2).specie.m ^ 2 := lt_of_le_of_lt (sq_nonneg _) b
    refine ⟨?_, (tri_iff h0 h1 hpos.le).mp ⟨b, c⟩⟩
    apply lt_of_le_of_ne a
    intro h
    rw [← h] at hpos
    simp at hpos
  · rintro ⟨a, b⟩
    have : 0 ≤ lastEnergy3 s p0 p1 ^ 2 - (s 2).specie.m ^ 2 := by nlinarith
    exact ⟨a.le, (tri_iff h0 h1 this).mpr b⟩

section
variable {s : Fin 3 → Reactant} {F : Fin 3 → ℝ → ℝ}

/-- Inside the region the integrand of the code is the velocity times the density. -/
theorem integrand3_full (hs : ∀ i, (s i).side = 1 ∨ (s i).side = -1) (s0 : (s 0).side = -1)
    (hocc : ∀ i p, 0 ≤ p → occAt (s i).specie p = .ok (F i p)) (hF : ∀ i p, 0 ≤ p → 0 ≤ F i p)
    (p0 p1 : ℝ) (h0 : 0 < p0) (h1 : 0 < p1) (h : Ok3 s p0 p1) :
    valOf (integrandFull3 p0 p1 0 s) = (p1 / energyOf (s 1).specie.m p1) / (p0 * energyOf (s 0).specie.m p0) *
      (2 * netFlux s (fun i => F i (momenta3 s p0 p1 i))) := by
  have hn := momenta3_nonneg s h0.le h1.le
  rw [integrand3_inside s p0 p1 0 (fun i => F i (momenta3 s p0 p1 i)) _ h0 h1 h.1
    (inBounds3_inside s h0 h1 h.2.1 h.2.2) (fun i => hocc i _ (hn i))
    (kind_full_three s _ hs s0 fun i => hF i _ (hn i)), energyOf_deriv _ _ h1]
  unfold valOf netFlux
  dsimp only
  ring

/-- The value for a particle at rest exists. -/
theorem integrand3_rest (hs : ∀ i, (s i).side = 1 ∨ (s i).side = -1) (s0 : (s 0).side = -1)
    (hocc : ∀ i p, 0 ≤ p → occAt (s i).specie p = .ok (F i p)) (hF : ∀ i p, 0 ≤ p → 0 ≤ F i p)
    (k : ℝ) (hk : 0 ≤ k) :
    integrandFull3 0 k 0 s = .ok (valOf (integrandFull3 0 k 0 s)) := by
  have hn := momenta3_nonneg s le_rfl hk
  have : ∃ v, integrandFull3 0 k 0 s = .ok v := by
    unfold integrandFull3
    split_ifs
    · exact ⟨_, rfl⟩
    · simp only [hocc _ _ (hn _), bind, Except.bind]
      rw [kind_full_three s (fun i => F i (momenta3 s 0 k i)) hs s0 fun i => hF i _ (hn i)]
      exact ⟨_, rfl⟩
  obtain ⟨v, hv⟩ := this
  rw [hv]; rfl

/-- Entry of the loop of a decaying particle. -/
theorem entry_decay (max2 : ℝ) (st : ℝ × ℝ)
    (s0 : (s 0).side = -1) (s1 : (s 1).side = 1) (s2 : (s 2).side = 1)
    (hm0 : 0 < (s 0).specie.m) (hm1 : 0 ≤ (s 1).specie.m) (hm2 : 0 ≤ (s 2).specie.m)
    (hopen : (s 1).specie.m + (s 2).specie.m ≤ (s 0).specie.m)
    (hocc : ∀ i p, 0 ≤ p → occAt (s i).specie p = .ok (F i p)) (hF : ∀ i p, 0 ≤ p → 0 ≤ F i p)
    (p0 : ℝ) (h0 : 0 < p0) :
    (if (outerLimits3 (loopCtx3 s max2) p0 st).2 then
      exactQuad3 s 0 p0 (outerLimits3 (loopCtx3 s max2) p0 st).1.1 (outerLimits3 (loopCtx3 s max2) p0 st).1.2
      else .ok 0) = .ok (innerOf (s 0).specie.m (s 1).specie.m (dens3 s F fun _ _ => True) p0) := by
  classical
  have hs : ∀ i, (s i).side = 1 ∨ (s i).side = -1 := by
    intro i; fin_cases i
    · exact Or.inr s0
    · exact Or.inl s1
    · exact Or.inl s2
  have hC := fun p1 h1 => C65_decay s max2 p0 p1 st s0 s1 s2 hm0 hm1 hm2 hopen h0 h1
  have hI := fun p1 h1 => decay3_inside s max2 p0 p1 st s0 s1 s2 hm0 hm1 hm2 hopen h0 h1
  obtain ⟨hl0, hlh, -⟩ := limits3_energy hm0 hm1 hm2 hopen h0
  have ht : (loopCtx3 s max2).type = 1 := by simp [loopCtx3, reactionTypeSum, s0, s1, s2]
  have hlim : outerLimits3 (loopCtx3 s max2) p0 st =
      ((max (p1Bounds3 (s 0).specie.m (s 1).specie.m (s 2).specie.m p0 1 1)
        (-p1Bounds3 (s 0).specie.m (s 1).specie.m (s 2).specie.m p0 1 1),
        p1Bounds3 (s 0).specie.m (s 1).specie.m (s 2).specie.m p0 (-1) 1), true) := by
    unfold outerLimits3
    rw [ht]
    simp only [show ¬ (1 : ℤ) = -1 by decide, if_false]
    rfl
  change ∀ p1, 0 < p1 → (outerLimits3 (loopCtx3 s max2) p0 st).2 = true ∧
    (factor3 s p0 p1 ≠ 0 → (outerLimits3 (loopCtx3 s max2) p0 st).1.1 ≤ p1 ∧
      p1 ≤ (outerLimits3 (loopCtx3 s max2) p0 st).1.2) ∧ _ at hC
  change ∀ p1, 0 < p1 → (outerLimits3 (loopCtx3 s max2) p0 st).1.1 < p1 →
    p1 < (outerLimits3 (loopCtx3 s max2) p0 st).1.2 → Ok3 s p0 p1 at hI
  rw [hlim] at hC hI ⊢
  simp only at hC hI ⊢
  rw [if_pos trivial, exactQuad3_eq]
  congr 1
  rw [integral_limits _ _ (fun p1 => Ok3 s p0 p1) _ (fun p1 =>
    (p1 / energyOf (s 1).specie.m p1) / (p0 * energyOf (s 0).specie.m p0) *
      (2 * netFlux s (fun i => F i (momenta3 s p0 p1 i)))) hl0 hlh]
  · unfold innerOf dens3
    congr 1
    funext p1
    by_cases h : Ok3 s p0 p1 <;> simp [h]
  · intro p1 h1 h
    exact (hC p1 h1).2.1 (factor3_ne_zero_of s h0 h1 h.1 h.2.1 h.2.2)
  · exact hI
  · intro p1 h1 h
    exact integrand3_full hs s0 hocc hF p0 p1 h0 h1 h

theorem creation_order (c : LoopCtx3) (p0 : ℝ) (st : ℝ × ℝ) (ht : c.type = -1)
    (h : (outerLimits3 c p0 st).2 = true) :
    0 ≤ (outerLimits3 c p0 st).1.1 ∧ (outerLimits3 c p0 st).1.1 ≤ (outerLimits3 c p0 st).1.2 := by
  have hab : ∀ x : ℝ, 0 ≤ max x (-x) := by
    intro x
    rcases le_total 0 x with h | h
    · exact le_max_of_le_left h
    · exact le_max_of_le_right (by linarith)
  unfold outerLimits3 at h ⊢
  rw [if_pos ht] at h ⊢
  by_cases hm : c.m0 = 0
  · rw [if_pos hm] at h ⊢
    dsimp only at h ⊢
    split_ifs at h ⊢ with a b
    exact ⟨hab _, (not_le.mp b).le⟩
  · rw [if_neg hm] at h ⊢
    dsimp only at h ⊢
    split_ifs at h ⊢ with a b
    exact ⟨hab _, (not_le.mp b).le⟩

/-- Entry of the loop of a product. -/
theorem entry_creation (max2 : ℝ) (st : ℝ × ℝ) (hmax : 0 ≤ max2)
    (s0 : (s 0).side = -1) (s1 : (s 1).side = -1) (s2 : (s 2).side = 1)
    (hm0 : 0 ≤ (s 0).specie.m) (hm1 : 0 ≤ (s 1).specie.m) (hm2 : 0 ≤ (s 2).specie.m)
    (hopen : (s 0).specie.m + (s 1).specie.m < (s 2).specie.m)
    (hocc : ∀ i p, 0 ≤ p → occAt (s i).specie p = .ok (F i p)) (hF : ∀ i p, 0 ≤ p → 0 ≤ F i p)
    (p0 : ℝ) (h0 : 0 < p0) :
    (if (outerLimits3 (loopCtx3 s max2) p0 st).2 then
      exactQuad3 s 0 p0 (outerLimits3 (loopCtx3 s max2) p0 st).1.1 (outerLimits3 (loopCtx3 s max2) p0 st).1.2
      else .ok 0) = .ok (innerOf (s 0).specie.m (s 1).specie.m
        (dens3 s F fun p0 p1 => momenta3 s p0 p1 2 ≤ max2) p0) := by
  classical
  have hs : ∀ i, (s i).side = 1 ∨ (s i).side = -1 := by
    intro i; fin_cases i
    · exact Or.inr s0
    · exact Or.inr s1
    · exact Or.inl s2
  have hC : ∀ p1, 0 < p1 →
    (factor3 s p0 p1 ≠ 0 → momenta3 s p0 p1 2 ≤ max2 →
      (outerLimits3 (loopCtx3 s max2) p0 st).1.1 ≤ p1 ∧ p1 ≤ (outerLimits3 (loopCtx3 s max2) p0 st).1.2 ∧
      ((outerLimits3 (loopCtx3 s max2) p0 st).2 = true ∨
        (outerLimits3 (loopCtx3 s max2) p0 st).1.1 = p1 ∧
        (outerLimits3 (loopCtx3 s max2) p0 st).1.2 = p1)) ∧
    ((outerLimits3 (loopCtx3 s max2) p0 st).2 = true →
      (outerLimits3 (loopCtx3 s max2) p0 st).1.1 < p1 → p1 < (outerLimits3 (loopCtx3 s max2) p0 st).1.2 →
      Ok3 s p0 p1 ∧ momenta3 s p0 p1 2 ≤ max2) := by
    intro p1 h1
    rcases hm0.lt_or_eq with h | h
    · exact creation3_limits s max2 p0 p1 st s0 s1 s2 h hm1 hm2 hopen.le hmax h0 h1
    · exact creation3_limits_massless s max2 p0 p1 st s0 s1 s2 h.symm hm1 hm2 (by linarith) hmax h0 h1
  have ht : (loopCtx3 s max2).type = -1 := by simp [loopCtx3, reactionTypeSum, s0, s1, s2]
  have hord := creation_order (loopCtx3 s max2) p0 st ht
  have hne : ∀ p1, 0 < p1 → Ok3 s p0 p1 → factor3 s p0 p1 ≠ 0 := fun p1 h1 h =>
    factor3_ne_zero_of s h0 h1 h.1 h.2.1 h.2.2
  have e : innerOf (s 0).specie.m (s 1).specie.m (dens3 s F fun p0 p1 => momenta3 s p0 p1 2 ≤ max2) p0 =
      ∫ p1 in Set.Ioi 0, if Ok3 s p0 p1 ∧ momenta3 s p0 p1 2 ≤ max2 then
        (p1 / energyOf (s 1).specie.m p1) / (p0 * energyOf (s 0).specie.m p0) *
          (2 * netFlux s (fun i => F i (momenta3 s p0 p1 i))) else 0 := by
    unfold innerOf dens3
    congr 1
    funext p1
    by_cases h : Ok3 s p0 p1 ∧ momenta3 s p0 p1 2 ≤ max2 <;> simp [h]
  rw [e]
  by_cases hfl : (outerLimits3 (loopCtx3 s max2) p0 st).2 = true
  · rw [if_pos hfl, exactQuad3_eq]
    congr 1
    obtain ⟨hl0, hlh⟩ := hord hfl
    rw [integral_limits _ _ (fun p1 => Ok3 s p0 p1 ∧ momenta3 s p0 p1 2 ≤ max2) _ (fun p1 =>
      (p1 / energyOf (s 1).specie.m p1) / (p0 * energyOf (s 0).specie.m p0) *
      (2 * netFlux s (fun i => F i (momenta3 s p0 p1 i)))) hl0 hlh]
    · intro p1 h1 h
      obtain ⟨a, b, -⟩ := (hC p1 h1).1 (hne p1 h1 h.1) h.2
      exact ⟨a, b⟩
    · intro p1 h1 a b
      exact (hC p1 h1).2 hfl a b
    · intro p1 h1 h
      exact integrand3_full hs s0 hocc hF p0 p1 h0 h1 h.1
  · rw [if_neg hfl]
    congr 1
    apply integral_point (outerLimits3 (loopCtx3 s max2) p0 st).1.1
    intro p1 h1 h
    obtain ⟨-, -, c⟩ := (hC p1 h1).1 (hne p1 h1 h.1) h.2
    rcases c with c | c
    · exact absurd c hfl
    · exact c.1.symm

open Classical in
/-- The whole array of the loop, the value at rest included. -/
noncomputable def spectrum3 (s : Fin 3 → Reactant) (F : Fin 3 → ℝ → ℝ) (cut : ℝ → ℝ → Prop) (p : ℝ) : ℝ :=
  if p = 0 then valOf (integrandFull3 0 (p1Bounds1 (s 0).specie.m (s 1).specie.m (s 2).specie.m) 0 s)
  else innerOf (s 0).specie.m (s 1).specie.m (dens3 s F cut) p

theorem p1Bounds1_nonneg (m0 m1 m2 : ℝ) (h : 0 ≤ m0) : 0 ≤ p1Bounds1 m0 m1 m2 := by
  unfold p1Bounds1
  split_ifs <;> positivity

theorem loop_array (cut : ℝ → ℝ → Prop) (max2 : ℝ)
    (hs : ∀ i, (s i).side = 1 ∨ (s i).side = -1) (s0 : (s 0).side = -1) (hm0 : 0 ≤ (s 0).specie.m)
    (hocc : ∀ i p, 0 ≤ p → occAt (s i).specie p = .ok (F i p)) (hF : ∀ i p, 0 ≤ p → 0 ≤ F i p)
    (hent : ∀ (st : ℝ × ℝ) (p0 : ℝ), 0 < p0 → (if (outerLimits3 (loopCtx3 s max2) p0 st).2 then
      exactQuad3 s 0 p0 (outerLimits3 (loopCtx3 s max2) p0 st).1.1 (outerLimits3 (loopCtx3 s max2) p0 st).1.2
      else .ok 0) = .ok (innerOf (s 0).specie.m (s 1).specie.m (dens3 s F cut) p0))
    (ps : List ℝ) (hps : ∀ p ∈ ps, 0 ≤ p) (min1 max1 : ℝ) (sched : List (List ℕ))
    (hsch : ValidSchedule ps.length sched) :
    integration3Exact s 0 ps min1 max1 max2 sched = .ok (ps.map (spectrum3 s F cut)) := by
  unfold integration3Exact
  rw [C40_three_value _ _ _ _ _ _ _ hsch]
  apply mapM_ok_map
  intro p hp
  unfold spectrum3
  by_cases h : p = 0
  · rw [if_pos h, if_pos h]
    exact integrand3_rest hs s0 hocc hF _ (p1Bounds1_nonneg _ _ _ hm0)
  · rw [if_neg h, if_neg h]
    exact hent _ p (lt_of_le_of_ne (hps p hp) (Ne.symm h))

end

section
variable (r : Fin 3 → Reactant) (f : Fin 3 → ℝ → ℝ) (P : ℝ)

/-- The reaction as the first product sees it: `a + b ← X`, and as the second one does. -/
abbrev viewA (r : Fin 3 → Reactant) : Fin 3 → Reactant := viewOf r (finRotate 3) (-1)
abbrev viewB (r : Fin 3 → Reactant) : Fin 3 → Reactant := viewOf r (Equiv.swap 0 2) (-1)

open Classical in
/-- Density of events over the energies of the decaying particle and of its first product. -/
noncomputable def events (x y : ℝ) : ℝ :=
  if (r 0).specie.m < x ∧ x ≤ energyOf (r 0).specie.m P ∧ (r 1).specie.m < y ∧ (r 2).specie.m < x - y ∧
      Tri (momOf (r 0).specie.m x) (momOf (r 1).specie.m y) (momOf (r 2).specie.m (x - y)) then
    2 * netFlux r ![f 0 (momOf (r 0).specie.m x), f 1 (momOf (r 1).specie.m y),
      f 2 (momOf (r 2).specie.m (x - y))] else 0

variable {r f P}

theorem ite_iff {a b : Prop} {_ : Decidable a} {_ : Decidable b} {u v : ℝ} (h : a ↔ b) (e : b → u = v) :
    (if a then u else 0) = if b then v else 0 := by
  by_cases hb : b
  · rw [if_pos hb, if_pos (h.mpr hb), e hb]
  · rw [if_neg hb, if_neg (fun ha => hb (h.mp ha))]

theorem ite_iff_neg {a b : Prop} {_ : Decidable a} {_ : Decidable b} {u v : ℝ} (h : a ↔ b) (e : b → u = -v) :
    (if a then u else 0) = -if b then v else 0 := by
  by_cases hb : b
  · rw [if_pos hb, if_pos (h.mpr hb), e hb]
  · rw [if_neg hb, if_neg (fun ha => hb (h.mp ha)), neg_zero]

theorem dens_decay (s0 : (r 0).side = -1) (s1 : (r 1).side = 1) (s2 : (r 2).side = 1) (hP : 0 ≤ P)
    (hm : ∀ i, 0 ≤ (r i).specie.m) (x y : ℝ) (hx : (r 0).specie.m < x) (hy : (r 1).specie.m < y) :
    dens3 r f (fun p0 _ => p0 ≤ P) (momOf (r 0).specie.m x) (momOf (r 1).specie.m y) = events r f P x y := by
  have hpx := momOf_pos _ _ (hm 0) hx
  have hpy := momOf_pos _ _ (hm 1) hy
  have hL : lastEnergy3 r (momOf (r 0).specie.m x) (momOf (r 1).specie.m y) = x - y := by
    unfold lastEnergy3
    rw [s0, s1, s2, ← energyOf_eq, ← energyOf_eq, energyOf_momOf _ _ (hm 0) hx.le,
      energyOf_momOf _ _ (hm 1) hy.le]
    push_cast; ring
  unfold dens3 events
  have hc : (Ok3 r (momOf (r 0).specie.m x) (momOf (r 1).specie.m y) ∧ momOf (r 0).specie.m x ≤ P) ↔
      ((r 0).specie.m < x ∧ x ≤ energyOf (r 0).specie.m P ∧ (r 1).specie.m < y ∧ (r 2).specie.m < x - y ∧
      Tri (momOf (r 0).specie.m x) (momOf (r 1).specie.m y) (momOf (r 2).specie.m (x - y))) := by
    rw [ok3_iff r _ _ hpx hpy (hm 2), hL, momOf_le _ _ _ (hm 0) hx.le hP]
    tauto
  refine ite_iff hc fun _ => ?_
  congr 2
  funext i
  fin_cases i
  · rfl
  · rfl
  · change f 2 √(lastEnergy3 r _ _ ^ 2 - _) = f 2 _
    rw [hL]; rfl

theorem tri_rot (x y z : ℝ) : Tri x y z ↔ Tri y z x := by
  unfold Tri
  constructor <;> rintro ⟨a, b, c⟩ <;> exact ⟨by linarith, by linarith, by linarith⟩

theorem tri_swap (x y z : ℝ) : Tri x y z ↔ Tri z y x := by
  unfold Tri
  constructor <;> rintro ⟨a, b, c⟩ <;> exact ⟨by linarith, by linarith, by linarith⟩

theorem momOf_pos_iff (m E : ℝ) (hE : 0 ≤ E) (h : 0 < momOf m E) : m < E := by
  unfold momOf at h
  have := Real.sqrt_pos.mp h
  nlinarith

theorem dens_first (s0 : (r 0).side = -1) (s1 : (r 1).side = 1) (s2 : (r 2).side = 1) (hP : 0 ≤ P)
    (hm : ∀ i, 0 ≤ (r i).specie.m) (y z : ℝ) (hy : (r 1).specie.m < y) (hz : (r 2).specie.m < z) :
    dens3 (viewA r) (fun i => f (finRotate 3 i)) (fun p0 p1 => momenta3 (viewA r) p0 p1 2 ≤ P)
      (momOf (r 1).specie.m y) (momOf (r 2).specie.m z) = -events r f P (y + z) y := by
  have hpy := momOf_pos _ _ (hm 1) hy
  have hpz := momOf_pos _ _ (hm 2) hz
  have hL : lastEnergy3 (viewA r) (momOf (r 1).specie.m y) (momOf (r 2).specie.m z) = y + z := by
    change (0 + ((-1 * (r 1).side : ℤ) : ℝ) * energy _ (r 1).specie.m + ((-1 * (r 2).side : ℤ) : ℝ) * energy _ (r 2).specie.m) *
      (-((-1 * (r 0).side : ℤ) : ℝ)) = _
    rw [s0, s1, s2, ← energyOf_eq, ← energyOf_eq, energyOf_momOf _ _ (hm 1) hy.le,
      energyOf_momOf _ _ (hm 2) hz.le]
    push_cast; ring
  have hmom : momenta3 (viewA r) (momOf (r 1).specie.m y) (momOf (r 2).specie.m z) 2 =
      momOf (r 0).specie.m (y + z) := by
    change √(lastEnergy3 (viewA r) _ _ ^ 2 - (r 0).specie.m ^ 2) = _
    rw [hL]; rfl
  unfold dens3 events
  have hc : (Ok3 (viewA r) (momOf (r 1).specie.m y) (momOf (r 2).specie.m z) ∧
      momenta3 (viewA r) (momOf (r 1).specie.m y) (momOf (r 2).specie.m z) 2 ≤ P) ↔
      ((r 0).specie.m < y + z ∧ y + z ≤ energyOf (r 0).specie.m P ∧ (r 1).specie.m < y ∧
        (r 2).specie.m < y + z - y ∧
      Tri (momOf (r 0).specie.m (y + z)) (momOf (r 1).specie.m y) (momOf (r 2).specie.m (y + z - y))) := by
    rw [ok3_iff (viewA r) _ _ hpy hpz (hm 0), hL, hmom, add_sub_cancel_left,
      tri_rot (momOf (r 0).specie.m (y + z))]
    change ((r 0).specie.m < y + z ∧ _) ∧ _ ↔ _
    constructor
    · rintro ⟨⟨a, b⟩, c⟩
      exact ⟨a, (momOf_le _ _ _ (hm 0) a.le hP).mp c, hy, hz, b⟩
    · rintro ⟨a, c, -, -, b⟩
      exact ⟨⟨a, b⟩, (momOf_le _ _ _ (hm 0) a.le hP).mpr c⟩
  refine ite_iff_neg hc fun _ => ?_
  · rw [add_sub_cancel_left]
    have := flux_net r ![f 0 (momOf (r 0).specie.m (y + z)), f 1 (momOf (r 1).specie.m y),
      f 2 (momOf (r 2).specie.m z)] (finRotate 3) (-1) (Or.inr rfl)
    unfold netFlux
    rw [show (fun i => f (finRotate 3 i) (momenta3 (viewA r) (momOf (r 1).specie.m y) (momOf (r 2).specie.m z) i)) =
      ![f 0 (momOf (r 0).specie.m (y + z)), f 1 (momOf (r 1).specie.m y), f 2 (momOf (r 2).specie.m z)] ∘
        finRotate 3 from ?_, this]
    · push_cast; ring
    · funext i
      fin_cases i
      · rfl
      · rfl
      · change f 0 (momenta3 (viewA r) _ _ 2) = f 0 _
        rw [hmom]

theorem dens_second (s0 : (r 0).side = -1) (s1 : (r 1).side = 1) (s2 : (r 2).side = 1) (hP : 0 ≤ P)
    (hm : ∀ i, 0 ≤ (r i).specie.m) (y z : ℝ) (hy : (r 1).specie.m < y) (hz : (r 2).specie.m < z) :
    dens3 (viewB r) (fun i => f (Equiv.swap 0 2 i)) (fun p0 p1 => momenta3 (viewB r) p0 p1 2 ≤ P)
      (momOf (r 2).specie.m z) (momOf (r 1).specie.m y) = -events r f P (y + z) y := by
  have hpy := momOf_pos _ _ (hm 1) hy
  have hpz := momOf_pos _ _ (hm 2) hz
  have hL : lastEnergy3 (viewB r) (momOf (r 2).specie.m z) (momOf (r 1).specie.m y) = y + z := by
    change (0 + ((-1 * (r 2).side : ℤ) : ℝ) * energy _ (r 2).specie.m + ((-1 * (r 1).side : ℤ) : ℝ) * energy _ (r 1).specie.m) *
      (-((-1 * (r 0).side : ℤ) : ℝ)) = _
    rw [s0, s1, s2, ← energyOf_eq, ← energyOf_eq, energyOf_momOf _ _ (hm 1) hy.le,
      energyOf_momOf _ _ (hm 2) hz.le]
    push_cast; ring
  have hmom : momenta3 (viewB r) (momOf (r 2).specie.m z) (momOf (r 1).specie.m y) 2 =
      momOf (r 0).specie.m (y + z) := by
    change √(lastEnergy3 (viewB r) _ _ ^ 2 - (r 0).specie.m ^ 2) = _
    rw [hL]; rfl
  unfold dens3 events
  have hc : (Ok3 (viewB r) (momOf (r 2).specie.m z) (momOf (r 1).specie.m y) ∧
      momenta3 (viewB r) (momOf (r 2).specie.m z) (momOf (r 1).specie.m y) 2 ≤ P) ↔
      ((r 0).specie.m < y + z ∧ y + z ≤ energyOf (r 0).specie.m P ∧ (r 1).specie.m < y ∧
        (r 2).specie.m < y + z - y ∧
      Tri (momOf (r 0).specie.m (y + z)) (momOf (r 1).specie.m y) (momOf (r 2).specie.m (y + z - y))) := by
    rw [ok3_iff (viewB r) _ _ hpz hpy (hm 0), hL, hmom, add_sub_cancel_left,
      tri_swap (momOf (r 0).specie.m (y + z))]
    change ((r 0).specie.m < y + z ∧ _) ∧ _ ↔ _
    constructor
    · rintro ⟨⟨a, b⟩, c⟩
      exact ⟨a, (momOf_le _ _ _ (hm 0) a.le hP).mp c, hy, hz, b⟩
    · rintro ⟨a, c, -, -, b⟩
      exact ⟨⟨a, b⟩, (momOf_le _ _ _ (hm 0) a.le hP).mpr c⟩
  refine ite_iff_neg hc fun _ => ?_
  · rw [add_sub_cancel_left]
    have := flux_net r ![f 0 (momOf (r 0).specie.m (y + z)), f 1 (momOf (r 1).specie.m y),
      f 2 (momOf (r 2).specie.m z)] (Equiv.swap 0 2) (-1) (Or.inr rfl)
    unfold netFlux
    rw [show (fun i => f (Equiv.swap 0 2 i) (momenta3 (viewB r) (momOf (r 2).specie.m z) (momOf (r 1).specie.m y) i)) =
      ![f 0 (momOf (r 0).specie.m (y + z)), f 1 (momOf (r 1).specie.m y), f 2 (momOf (r 2).specie.m z)] ∘
        Equiv.swap 0 2 from ?_, this]
    · push_cast; ring
    · funext i
      fin_cases i
      · rfl
      · rfl
      · change f 0 (momenta3 (viewB r) _ _ 2) = f 0 _
        rw [hmom]

theorem events_measurable (hf : ∀ i, Measurable (f i)) :
    Measurable (Function.uncurry (events r f P)) := by
  unfold Function.uncurry events
  have hk : ∀ m, Measurable (momOf m) := momOf_measurable
  apply Measurable.ite
  · have a1 : Measurable fun z : ℝ × ℝ => momOf (r 0).specie.m z.1 := (hk _).comp measurable_fst
    have a2 : Measurable fun z : ℝ × ℝ => momOf (r 1).specie.m z.2 := (hk _).comp measurable_snd
    have a3 : Measurable fun z : ℝ × ℝ => momOf (r 2).specie.m (z.1 - z.2) :=
      (hk _).comp (measurable_fst.sub measurable_snd)
    exact (measurableSet_lt measurable_const measurable_fst).inter
      ((measurableSet_le measurable_fst measurable_const).inter
      ((measurableSet_lt measurable_const measurable_snd).inter
      ((measurableSet_lt measurable_const (measurable_fst.sub measurable_snd)).inter
      ((measurableSet_lt a1 (a2.add a3)).inter
      ((measurableSet_lt a2 (a1.add a3)).inter (measurableSet_lt a3 (a1.add a2)))))))
  · have a1 : Measurable fun z : ℝ × ℝ => f 0 (momOf (r 0).specie.m z.1) := (hf 0).comp ((hk _).comp measurable_fst)
    have a2 : Measurable fun z : ℝ × ℝ => f 1 (momOf (r 1).specie.m z.2) := (hf 1).comp ((hk _).comp measurable_snd)
    have a3 : Measurable fun z : ℝ × ℝ => f 2 (momOf (r 2).specie.m (z.1 - z.2)) :=
      (hf 2).comp ((hk _).comp (measurable_fst.sub measurable_snd))
    unfold netFlux flux
    simp only [Fin.prod_univ_three]
    apply Measurable.const_mul
    apply Measurable.sub
    · refine ((Measurable.mul ?_ ?_).mul ?_)
      · split_ifs
        · exact a1
        · exact measurable_const.sub (a1.const_mul _)
      · split_ifs
        · exact a2
        · exact measurable_const.sub (a2.const_mul _)
      · split_ifs
        · exact a3
        · exact measurable_const.sub (a3.const_mul _)
    · refine ((Measurable.mul ?_ ?_).mul ?_)
      · split_ifs
        · exact a1
        · exact measurable_const.sub (a1.const_mul _)
      · split_ifs
        · exact a2
        · exact measurable_const.sub (a2.const_mul _)
      · split_ifs
        · exact a3
        · exact measurable_const.sub (a3.const_mul _)
  · exact measurable_const

/-- The occupation numbers are bounded where the reaction can take place. -/
def BoundedOn (r : Fin 3 → Reactant) (f : Fin 3 → ℝ → ℝ) (P B : ℝ) : Prop :=
  ∀ x y z, 0 < x → x ≤ P → 0 < y → 0 < z →
    energyOf (r 0).specie.m x = energyOf (r 1).specie.m y + energyOf (r 2).specie.m z →
    Tri x y z → |f 0 x| ≤ B ∧ |f 1 y| ≤ B ∧ |f 2 z| ≤ B

theorem flux_bound (B : ℝ) (hB : 1 ≤ B) (r : Fin 3 → Reactant) (heta : ∀ i, (r i).specie.eta = 1 ∨ (r i).specie.eta = -1)
    (v : Fin 3 → ℝ) (hv : ∀ i, |v i| ≤ B) (t : ℤ) : |flux r v t| ≤ (2 * B) ^ 3 := by
  unfold flux
  rw [Finset.abs_prod, ← Fin.prod_const 3 (2 * B)]
  apply Finset.prod_le_prod
  · intro i _; exact abs_nonneg _
  · intro i _
    have := hv i
    split_ifs
    · linarith
    · rcases heta i with h | h
      · rw [h]
        refine (abs_sub _ _).trans ?_
        push_cast
        rw [one_mul, abs_one]; linarith
      · rw [h]
        refine (abs_sub _ _).trans ?_
        push_cast
        rw [neg_one_mul, abs_neg, abs_one]; linarith

theorem events_bound (B : ℝ) (hB : 1 ≤ B) (heta : ∀ i, (r i).specie.eta = 1 ∨ (r i).specie.eta = -1)
    (hP : 0 ≤ P) (hm : ∀ i, 0 ≤ (r i).specie.m) (hb : BoundedOn r f P B) (x y : ℝ) :
    |events r f P x y| ≤ 2 * (2 * (2 * B) ^ 3) := by
  unfold events
  split_ifs with h
  · obtain ⟨a, b, c, d, e⟩ := h
    obtain ⟨u, v, w⟩ := hb _ _ _ (momOf_pos _ _ (hm 0) a) ((momOf_le _ _ _ (hm 0) a.le hP).mpr b)
      (momOf_pos _ _ (hm 1) c) (momOf_pos _ _ (hm 2) d)
      (by rw [energyOf_momOf _ _ (hm 0) a.le, energyOf_momOf _ _ (hm 1) c.le,
        energyOf_momOf _ _ (hm 2) d.le]; ring) e
    have hv : ∀ i, |(![f 0 (momOf (r 0).specie.m x), f 1 (momOf (r 1).specie.m y),
      f 2 (momOf (r 2).specie.m (x - y))] : Fin 3 → ℝ) i| ≤ B := by
      intro i; fin_cases i
      · exact u
      · exact v
      · exact w
    rw [abs_mul, abs_two]
    apply mul_le_mul_of_nonneg_left _ (by norm_num)
    refine (abs_sub _ _).trans ?_
    linarith [flux_bound B hB r heta _ hv 1, flux_bound B hB r heta _ hv (-1)]
  · rw [abs_zero]; positivity

theorem events_support (hm : ∀ i, 0 ≤ (r i).specie.m) (x y : ℝ) (h : events r f P x y ≠ 0) :
    (r 0).specie.m < x ∧ (r 1).specie.m < y ∧ (r 2).specie.m < x - y ∧
    |x| ≤ energyOf (r 0).specie.m P ∧ |y| ≤ energyOf (r 0).specie.m P := by
  unfold events at h
  split_ifs at h with hc
  · obtain ⟨a, b, c, d, -⟩ := hc
    have h0 := hm 0
    have h1 := hm 1
    have h2 := hm 2
    refine ⟨a, c, d, ?_, ?_⟩ <;> rw [abs_of_nonneg (by linarith)] <;> linarith
  · exact absurd rfl h

theorem setIntegral_all (m : ℝ) (g : ℝ → ℝ) (h : ∀ x, x ≤ m → g x = 0) :
    ∫ x in Set.Ioi m, g x = ∫ x, g x :=
  setIntegral_eq_integral_of_forall_compl_eq_zero fun x hx => h x (not_lt.mp hx)

/-- A product of mass `m₁` and momentum `p > 0` can come from a decay of an `X` with momentum up to `P`. -/
def Producible (M m1 m2 P p : ℝ) : Prop :=
  ∃ pB pC, 0 < pB ∧ 0 < pC ∧ pC ≤ P ∧ energyOf m1 p + energyOf m2 pB = energyOf M pC ∧ Tri pC p pB

theorem lt_energyOf {m p : ℝ} (hm : 0 ≤ m) (hp : 0 < p) : m < energyOf m p := by
  unfold energyOf
  exact Real.lt_sqrt_of_sq_lt (by nlinarith)

theorem events_cond {x y : ℝ} (h : events r f P x y ≠ 0) :
    (r 0).specie.m < x ∧ x ≤ energyOf (r 0).specie.m P ∧ (r 1).specie.m < y ∧ (r 2).specie.m < x - y ∧
      Tri (momOf (r 0).specie.m x) (momOf (r 1).specie.m y) (momOf (r 2).specie.m (x - y)) := by
  by_contra hn
  apply h
  unfold events
  exact if_neg hn

theorem spectrum_support {s : Fin 3 → Reactant} {F : Fin 3 → ℝ → ℝ} {cut : ℝ → ℝ → Prop} {p : ℝ} (hp : 0 < p)
    (h : spectrum3 s F cut p ≠ 0) : ∃ p1, 0 < p1 ∧ dens3 s F cut p p1 ≠ 0 := by
  by_contra hn
  push Not at hn
  apply h
  unfold spectrum3
  rw [if_neg hp.ne']
  unfold innerOf
  apply setIntegral_eq_zero_of_forall_eq_zero
  intro p1 h1
  rw [hn p1 h1, mul_zero]

theorem producible_of {M m1 m2 p pB : ℝ} (hP : 0 ≤ P) (hM : 0 ≤ M) (h1 : 0 ≤ m1) (h2 : 0 ≤ m2) (hp : 0 < p)
    (hB : 0 < pB) (ht : M < energyOf m1 p + energyOf m2 pB)
    (hc : energyOf m1 p + energyOf m2 pB ≤ energyOf M P)
    (h : Tri (momOf M (energyOf m1 p + energyOf m2 pB)) p pB) : Producible M m1 m2 P p :=
  ⟨pB, _, hB, momOf_pos _ _ hM ht, (momOf_le _ _ _ hM ht.le hP).mpr hc, (energyOf_momOf _ _ hM ht.le).symm, h⟩

/-- **C93, totals.** For `X → a + b` and its inverse with arbitrary spectra, the arrays computed by the three species on
any momentum grids are samples of functions whose weighted totals add up to an integral over all events. -/
theorem C93_totals (r : Fin 3 → Reactant) (f : Fin 3 → ℝ → ℝ) (P B : ℝ)
    (s0 : (r 0).side = -1) (s1 : (r 1).side = 1) (s2 : (r 2).side = 1)
    (hm0 : 0 < (r 0).specie.m) (hm1 : 0 ≤ (r 1).specie.m) (hm2 : 0 ≤ (r 2).specie.m)
    (hopen : (r 1).specie.m + (r 2).specie.m < (r 0).specie.m) (hP : 0 ≤ P)
    (heta : ∀ i, (r i).specie.eta = 1 ∨ (r i).specie.eta = -1)
    (hocc : ∀ i p, 0 ≤ p → occAt (r i).specie p = .ok (f i p)) (hf0 : ∀ i p, 0 ≤ p → 0 ≤ f i p)
    (hfm : ∀ i, Measurable (f i)) (hB : BoundedOn r f P B) :
    ∃ I : Fin 3 → ℝ → ℝ,
      (∀ (ps : List ℝ), (∀ p ∈ ps, 0 ≤ p) → ∀ (min1 max1 max2 : ℝ) (sched : List (List ℕ)),
        ValidSchedule ps.length sched →
        integration3Exact r 0 ps min1 max1 max2 sched = .ok (ps.map (I 0)) ∧
        integration3Exact (viewA r) 0 ps min1 max1 P sched = .ok (ps.map (I 1)) ∧
        integration3Exact (viewB r) 0 ps min1 max1 P sched = .ok (ps.map (I 2))) ∧
      (∀ p, 0 < p → I 1 p ≠ 0 → Producible (r 0).specie.m (r 1).specie.m (r 2).specie.m P p) ∧
      (∀ p, 0 < p → I 2 p ≠ 0 → Producible (r 0).specie.m (r 2).specie.m (r 1).specie.m P p) ∧
      ∀ q : Fin 3 → ℝ → ℝ, (∀ i, Measurable (q i)) → (∀ S, ∃ C, ∀ i E, |E| ≤ S → |q i E| ≤ C) →
        IntegrableOn (fun p => p ^ 2 * q 0 (energyOf (r 0).specie.m p) * I 0 p) (Set.Ioc 0 P) ∧
        IntegrableOn (fun p => p ^ 2 * q 1 (energyOf (r 1).specie.m p) * I 1 p) (Set.Ioi 0) ∧
        IntegrableOn (fun p => p ^ 2 * q 2 (energyOf (r 2).specie.m p) * I 2 p) (Set.Ioi 0) ∧
        Integrable (fun z : ℝ × ℝ => (q 0 z.1 - q 1 z.2 - q 2 (z.1 - z.2)) * events r f P z.1 z.2)
          (volume.prod volume) ∧
        (∫ p in Set.Ioc 0 P, p ^ 2 * q 0 (energyOf (r 0).specie.m p) * I 0 p) +
        (∫ p in Set.Ioi 0, p ^ 2 * q 1 (energyOf (r 1).specie.m p) * I 1 p) +
        (∫ p in Set.Ioi 0, p ^ 2 * q 2 (energyOf (r 2).specie.m p) * I 2 p) =
        ∫ z : ℝ × ℝ, (q 0 z.1 - q 1 z.2 - q 2 (z.1 - z.2)) * events r f P z.1 z.2 ∂(volume.prod volume) := by
  classical
  have hm : ∀ i, 0 ≤ (r i).specie.m := by
    intro i; fin_cases i
    · exact hm0.le
    · exact hm1
    · exact hm2
  have hs : ∀ i, (r i).side = 1 ∨ (r i).side = -1 := by
    intro i; fin_cases i
    · exact Or.inr s0
    · exact Or.inl s1
    · exact Or.inl s2
  have hsA := view_sides r (finRotate 3) (-1) (Or.inr rfl) hs
  have hsB := view_sides r (Equiv.swap 0 2) (-1) (Or.inr rfl) hs
  have a0 : (viewA r 0).side = -1 := by change -1 * (r 1).side = -1; rw [s1]; rfl
  have a1 : (viewA r 1).side = -1 := by change -1 * (r 2).side = -1; rw [s2]; rfl
  have a2 : (viewA r 2).side = 1 := by change -1 * (r 0).side = 1; rw [s0]; rfl
  have b0 : (viewB r 0).side = -1 := by change -1 * (r 2).side = -1; rw [s2]; rfl
  have b1 : (viewB r 1).side = -1 := by change -1 * (r 1).side = -1; rw [s1]; rfl
  have b2 : (viewB r 2).side = 1 := by change -1 * (r 0).side = 1; rw [s0]; rfl
  set fA : Fin 3 → ℝ → ℝ := fun i => f (finRotate 3 i) with hfA
  set fB : Fin 3 → ℝ → ℝ := fun i => f (Equiv.swap 0 2 i) with hfB
  have oA : ∀ i p, 0 ≤ p → occAt (viewA r i).specie p = .ok (fA i p) := fun i p hp => hocc _ p hp
  have oB : ∀ i p, 0 ≤ p → occAt (viewB r i).specie p = .ok (fB i p) := fun i p hp => hocc _ p hp
  have nA : ∀ i p, 0 ≤ p → 0 ≤ fA i p := fun i p hp => hf0 _ p hp
  have nB : ∀ i p, 0 ≤ p → 0 ≤ fB i p := fun i p hp => hf0 _ p hp
  set cA : ℝ → ℝ → Prop := fun p0 p1 => momenta3 (viewA r) p0 p1 2 ≤ P
  set cB : ℝ → ℝ → Prop := fun p0 p1 => momenta3 (viewB r) p0 p1 2 ≤ P
  refine ⟨![spectrum3 r f fun _ _ => True, spectrum3 (viewA r) fA cA, spectrum3 (viewB r) fB cB], ?_, ?_, ?_, ?_⟩
  · intro ps hps min1 max1 max2 sched hsch
    refine ⟨?_, ?_, ?_⟩
    · exact loop_array _ max2 hs s0 (hm 0) hocc hf0 (fun st p0 h0 =>
        entry_decay max2 st s0 s1 s2 hm0 hm1 hm2 hopen.le hocc hf0 p0 h0) ps hps min1 max1 sched hsch
    · exact loop_array _ P hsA a0 (hm 1) oA nA (fun st p0 h0 =>
        entry_creation P st hP a0 a1 a2 (hm 1) (hm 2) (hm 0) hopen oA nA p0 h0) ps hps min1 max1 sched hsch
    · exact loop_array _ P hsB b0 (hm 2) oB nB (fun st p0 h0 =>
        entry_creation P st hP b0 b1 b2 (hm 2) (hm 1) (hm 0) (by rw [add_comm] at hopen; exact hopen) oB nB
          p0 h0) ps hps min1 max1 sched hsch
  · intro p hp h
    obtain ⟨p1, h1, hd⟩ := spectrum_support hp h
    have hy := lt_energyOf (hm 1) hp
    have hz := lt_energyOf (hm 2) h1
    have := dens_first (f := f) s0 s1 s2 hP hm _ _ hy hz
    rw [momOf_energyOf _ _ hp.le, momOf_energyOf _ _ h1.le] at this
    rw [this] at hd
    have hc := events_cond (neg_ne_zero.mp hd)
    rw [add_sub_cancel_left, momOf_energyOf _ _ hp.le, momOf_energyOf _ _ h1.le] at hc
    exact producible_of hP (hm 0) (hm 1) (hm 2) hp h1 hc.1 hc.2.1 hc.2.2.2.2
  · intro p hp h
    obtain ⟨p1, h1, hd⟩ := spectrum_support hp h
    have hz := lt_energyOf (hm 2) hp
    have hy := lt_energyOf (hm 1) h1
    have := dens_second (f := f) s0 s1 s2 hP hm _ _ hy hz
    rw [momOf_energyOf _ _ hp.le, momOf_energyOf _ _ h1.le] at this
    rw [this] at hd
    have hc := events_cond (neg_ne_zero.mp hd)
    rw [add_sub_cancel_left, momOf_energyOf _ _ hp.le, momOf_energyOf _ _ h1.le, add_comm (energyOf _ p1)] at hc
    exact producible_of hP (hm 0) (hm 2) (hm 1) hp h1 hc.1 hc.2.1
      ⟨by linarith [hc.2.2.2.2.1], by linarith [hc.2.2.2.2.2.2], by linarith [hc.2.2.2.2.2.1]⟩
  · intro q hq hqb
    have hB1 : BoundedOn r f P (max B 1) := by
      intro x y z hx hxP hy hz hE ht
      obtain ⟨u, v, w⟩ := hB x y z hx hxP hy hz hE ht
      exact ⟨u.trans (le_max_left _ _), v.trans (le_max_left _ _), w.trans (le_max_left _ _)⟩
    obtain ⟨i0, i1, i2, iE, hsum⟩ := balance_totals (events r f P) (events_measurable hfm)
      (energyOf (r 0).specie.m P) (2 * (2 * (2 * (max B 1)) ^ 3))
      (fun x y h => (events_support hm x y h).2.2.2)
      (events_bound (max B 1) (le_max_right _ _) heta hP hm hB1) q hq hqb
    -- the three weighted integrals as integrals over energies
    have zero0 : ∀ x, x ≤ (r 0).specie.m → ∀ y, events r f P x y = 0 := by
      intro x hx y
      by_contra h
      exact absurd (events_support hm x y h).1 (not_lt.mpr hx)
    have zero1 : ∀ y, y ≤ (r 1).specie.m → ∀ x, events r f P x y = 0 := by
      intro y hy x
      by_contra h
      exact absurd (events_support hm x y h).2.1 (not_lt.mpr hy)
    have zero2 : ∀ z, z ≤ (r 2).specie.m → ∀ y, events r f P (y + z) y = 0 := by
      intro z hz y
      by_contra h
      have := (events_support hm _ y h).2.2.1
      rw [add_sub_cancel_left] at this
      exact absurd this (not_lt.mpr hz)
    set g0 : ℝ → ℝ := fun x => q 0 x * ∫ y, events r f P x y with hg0
    set g1 : ℝ → ℝ := fun y => q 1 y * ∫ z, events r f P (y + z) y with hg1
    set g2 : ℝ → ℝ := fun z => q 2 z * ∫ y, events r f P (y + z) y with hg2
    have k0 : ∀ x ∈ Set.Ioi (r 0).specie.m, q 0 x * (∫ E in Set.Ioi (r 1).specie.m,
        dens3 r f (fun p0 _ => p0 ≤ P) (momOf (r 0).specie.m x) (momOf (r 1).specie.m E)) = g0 x := by
      intro x hx
      rw [hg0]
      dsimp only
      congr 1
      rw [← setIntegral_all (r 1).specie.m (fun y => events r f P x y) fun y hy => zero1 y hy x]
      apply setIntegral_congr_fun measurableSet_Ioi
      intro y hy
      exact dens_decay s0 s1 s2 hP hm x y hx hy
    have k1 : ∀ y ∈ Set.Ioi (r 1).specie.m, q 1 y * (∫ E in Set.Ioi (r 2).specie.m,
        dens3 (viewA r) fA cA (momOf (r 1).specie.m y) (momOf (r 2).specie.m E)) = -g1 y := by
      intro y hy
      rw [hg1]
      dsimp only
      rw [← mul_neg, ← integral_neg]
      congr 1
      rw [← setIntegral_all (r 2).specie.m (fun z => -events r f P (y + z) y)
        fun z hz => by rw [zero2 z hz y, neg_zero]]
      apply setIntegral_congr_fun measurableSet_Ioi
      intro z hz
      exact dens_first s0 s1 s2 hP hm y z hy hz
    have k2 : ∀ z ∈ Set.Ioi (r 2).specie.m, q 2 z * (∫ E in Set.Ioi (r 1).specie.m,
        dens3 (viewB r) fB cB (momOf (r 2).specie.m z) (momOf (r 1).specie.m E)) = -g2 z := by
      intro z hz
      rw [hg2]
      dsimp only
      rw [← mul_neg, ← integral_neg]
      congr 1
      rw [← setIntegral_all (r 1).specie.m (fun y => -events r f P (y + z) y)
        fun y hy => by rw [zero1 y hy _, neg_zero]]
      apply setIntegral_congr_fun measurableSet_Ioi
      intro y hy
      exact dens_second s0 s1 s2 hP hm y z hy hz
    have z0 : ∀ x, x ≤ (r 0).specie.m → g0 x = 0 := by
      intro x hx
      rw [hg0]; dsimp only
      simp only [zero0 x hx, integral_zero, mul_zero]
    have z1 : ∀ y, y ≤ (r 1).specie.m → -g1 y = 0 := by
      intro y hy
      rw [hg1]; dsimp only
      simp only [zero1 y hy, integral_zero, mul_zero, neg_zero]
    have z2 : ∀ z, z ≤ (r 2).specie.m → -g2 z = 0 := by
      intro z hz
      rw [hg2]; dsimp only
      simp only [zero2 z hz, integral_zero, mul_zero, neg_zero]
    -- the arrays away from rest
    have w1 : ∀ p ∈ Set.Ioi (0 : ℝ), p ^ 2 * q 1 (energyOf (r 1).specie.m p) * spectrum3 (viewA r) fA cA p =
        p ^ 2 * q 1 (energyOf (r 1).specie.m p) *
          innerOf (r 1).specie.m (r 2).specie.m (dens3 (viewA r) fA cA) p := by
      intro p hp
      unfold spectrum3
      rw [if_neg (ne_of_gt hp)]
      rfl
    have w2 : ∀ p ∈ Set.Ioi (0 : ℝ), p ^ 2 * q 2 (energyOf (r 2).specie.m p) * spectrum3 (viewB r) fB cB p =
        p ^ 2 * q 2 (energyOf (r 2).specie.m p) *
          innerOf (r 2).specie.m (r 1).specie.m (dens3 (viewB r) fB cB) p := by
      intro p hp
      unfold spectrum3
      rw [if_neg (ne_of_gt hp)]
      rfl
    have w0 : ∀ p ∈ Set.Ioi (0 : ℝ), (Set.Ioc 0 P).indicator
        (fun p => p ^ 2 * q 0 (energyOf (r 0).specie.m p) * spectrum3 r f (fun _ _ => True) p) p =
        p ^ 2 * q 0 (energyOf (r 0).specie.m p) *
          innerOf (r 0).specie.m (r 1).specie.m (dens3 r f fun p0 _ => p0 ≤ P) p := by
      intro p hp
      by_cases h : p ≤ P
      · have hmem : p ∈ Set.Ioc 0 P := ⟨hp, h⟩
        rw [Set.indicator_of_mem hmem]
        unfold spectrum3
        rw [if_neg (ne_of_gt hp)]
        have e : dens3 r f (fun _ _ => True) p = dens3 r f (fun p0 _ => p0 ≤ P) p := by
          funext p1
          exact ite_iff (by simp [h]) fun _ => rfl
        unfold innerOf
        rw [e]
      · rw [Set.indicator_of_notMem fun hmem => h hmem.2]
        have : innerOf (r 0).specie.m (r 1).specie.m (dens3 r f fun p0 _ => p0 ≤ P) p = 0 := by
          unfold innerOf dens3
          simp only [h, and_false, if_false, mul_zero, integral_zero]
        rw [this, mul_zero]
    have j0 := outer_integrable _ _ (hm 0) (hm 1) (dens3 r f fun p0 _ => p0 ≤ P) (q 0)
      (IntegrableOn.congr_fun i0.integrableOn (fun x hx => (k0 x hx).symm) measurableSet_Ioi)
    have j1 := outer_integrable _ _ (hm 1) (hm 2) (dens3 (viewA r) fA cA) (q 1)
      (IntegrableOn.congr_fun i1.neg.integrableOn (fun x hx => (k1 x hx).symm) measurableSet_Ioi)
    have j2 := outer_integrable _ _ (hm 2) (hm 1) (dens3 (viewB r) fB cB) (q 2)
      (IntegrableOn.congr_fun i2.neg.integrableOn (fun x hx => (k2 x hx).symm) measurableSet_Ioi)
    have t0 := outer_toEnergy _ _ (hm 0) (hm 1) (dens3 r f fun p0 _ => p0 ≤ P) (q 0)
    have t1 := outer_toEnergy _ _ (hm 1) (hm 2) (dens3 (viewA r) fA cA) (q 1)
    have t2 := outer_toEnergy _ _ (hm 2) (hm 1) (dens3 (viewB r) fB cB) (q 2)
    rw [setIntegral_congr_fun measurableSet_Ioi k0, setIntegral_all _ _ z0] at t0
    rw [setIntegral_congr_fun measurableSet_Ioi k1, setIntegral_all _ _ z1, integral_neg] at t1
    rw [setIntegral_congr_fun measurableSet_Ioi k2, setIntegral_all _ _ z2, integral_neg] at t2
    have hsub : Set.Ioi (0 : ℝ) ∩ Set.Ioc 0 P = Set.Ioc 0 P := Set.inter_eq_right.mpr fun x hx => hx.1
    have e0 : ∫ p in Set.Ioc 0 P, p ^ 2 * q 0 (energyOf (r 0).specie.m p) *
        spectrum3 r f (fun _ _ => True) p = ∫ x, g0 x := by
      rw [← t0, ← setIntegral_congr_fun measurableSet_Ioi w0, setIntegral_indicator measurableSet_Ioc, hsub]
    refine ⟨?_, ?_, ?_, iE, ?_⟩
    · have := IntegrableOn.congr_fun j0 (fun x hx => (w0 x hx).symm) measurableSet_Ioi
      have h2 := this.mono_set (t := Set.Ioi 0) (s := Set.Ioc 0 P) fun x hx => hx.1
      refine IntegrableOn.congr_fun h2 (fun x hx => ?_) measurableSet_Ioc
      rw [Set.indicator_of_mem hx]; rfl
    · exact IntegrableOn.congr_fun j1 (fun x hx => (w1 x hx).symm) measurableSet_Ioi
    · exact IntegrableOn.congr_fun j2 (fun x hx => (w2 x hx).symm) measurableSet_Ioi
    · change (∫ p in Set.Ioc 0 P, p ^ 2 * q 0 (energyOf (r 0).specie.m p) *
        spectrum3 r f (fun _ _ => True) p) +
        (∫ p in Set.Ioi 0, p ^ 2 * q 1 (energyOf (r 1).specie.m p) * spectrum3 (viewA r) fA cA p) +
        (∫ p in Set.Ioi 0, p ^ 2 * q 2 (energyOf (r 2).specie.m p) * spectrum3 (viewB r) fB cB p) = _
      rw [e0, setIntegral_congr_fun measurableSet_Ioi w1, setIntegral_congr_fun measurableSet_Ioi w2, t1, t2]
      rw [← hsum]
      ring

/-- **C93.** For `X → a + b` and its inverse with arbitrary spectra, the arrays computed by the three species on any
momentum grids are samples of functions with: whatever is additive in the decay (a function of the
energies with `q₀(E + E') = q₁(E) + q₂(E')`) is lost by `X` exactly as it is gained by `a` and `b`. -/
theorem C93_additive (r : Fin 3 → Reactant) (f : Fin 3 → ℝ → ℝ) (P B : ℝ)
    (s0 : (r 0).side = -1) (s1 : (r 1).side = 1) (s2 : (r 2).side = 1)
    (hm0 : 0 < (r 0).specie.m) (hm1 : 0 ≤ (r 1).specie.m) (hm2 : 0 ≤ (r 2).specie.m)
    (hopen : (r 1).specie.m + (r 2).specie.m < (r 0).specie.m) (hP : 0 ≤ P)
    (heta : ∀ i, (r i).specie.eta = 1 ∨ (r i).specie.eta = -1)
    (hocc : ∀ i p, 0 ≤ p → occAt (r i).specie p = .ok (f i p)) (hf0 : ∀ i p, 0 ≤ p → 0 ≤ f i p)
    (hfm : ∀ i, Measurable (f i)) (hB : BoundedOn r f P B) :
    ∃ I : Fin 3 → ℝ → ℝ,
      (∀ (ps : List ℝ), (∀ p ∈ ps, 0 ≤ p) → ∀ (min1 max1 max2 : ℝ) (sched : List (List ℕ)),
        ValidSchedule ps.length sched →
        integration3Exact r 0 ps min1 max1 max2 sched = .ok (ps.map (I 0)) ∧
        integration3Exact (viewA r) 0 ps min1 max1 P sched = .ok (ps.map (I 1)) ∧
        integration3Exact (viewB r) 0 ps min1 max1 P sched = .ok (ps.map (I 2))) ∧
      (∀ p, 0 < p → I 1 p ≠ 0 → Producible (r 0).specie.m (r 1).specie.m (r 2).specie.m P p) ∧
      (∀ p, 0 < p → I 2 p ≠ 0 → Producible (r 0).specie.m (r 2).specie.m (r 1).specie.m P p) ∧
      ∀ q : Fin 3 → ℝ → ℝ, (∀ i, Measurable (q i)) → (∀ S, ∃ C, ∀ i E, |E| ≤ S → |q i E| ≤ C) →
        (∀ E E', q 0 (E + E') = q 1 E + q 2 E') →
        IntegrableOn (fun p => p ^ 2 * q 0 (energyOf (r 0).specie.m p) * I 0 p) (Set.Ioc 0 P) ∧
        IntegrableOn (fun p => p ^ 2 * q 1 (energyOf (r 1).specie.m p) * I 1 p) (Set.Ioi 0) ∧
        IntegrableOn (fun p => p ^ 2 * q 2 (energyOf (r 2).specie.m p) * I 2 p) (Set.Ioi 0) ∧
        (∫ p in Set.Ioc 0 P, p ^ 2 * q 0 (energyOf (r 0).specie.m p) * I 0 p) +
        (∫ p in Set.Ioi 0, p ^ 2 * q 1 (energyOf (r 1).specie.m p) * I 1 p) +
        (∫ p in Set.Ioi 0, p ^ 2 * q 2 (energyOf (r 2).specie.m p) * I 2 p) = 0 := by
  obtain ⟨I, hI, hI1, hI2, hq⟩ := C93_totals r f P B s0 s1 s2 hm0 hm1 hm2 hopen hP heta hocc hf0 hfm hB
  refine ⟨I, hI, hI1, hI2, fun q hqm hqb hadd => ?_⟩
  obtain ⟨i0, i1, i2, -, hsum⟩ := hq q hqm hqb
  refine ⟨i0, i1, i2, hsum.trans ?_⟩
  have : ∀ z : ℝ × ℝ, (q 0 z.1 - q 1 z.2 - q 2 (z.1 - z.2)) * events r f P z.1 z.2 = 0 := by
    intro z
    have h := hadd z.2 (z.1 - z.2)
    rw [add_sub_cancel] at h
    rw [h]; ring
  simp only [this, integral_zero]

/-- **C93, numbers and energy.** The number of `X` lost is the number of `a` gained and the number of `b` gained; the
energy lost by `X` is gained by `a` and `b`. -/
theorem C93_conservation (r : Fin 3 → Reactant) (f : Fin 3 → ℝ → ℝ) (P B : ℝ)
    (s0 : (r 0).side = -1) (s1 : (r 1).side = 1) (s2 : (r 2).side = 1)
    (hm0 : 0 < (r 0).specie.m) (hm1 : 0 ≤ (r 1).specie.m) (hm2 : 0 ≤ (r 2).specie.m)
    (hopen : (r 1).specie.m + (r 2).specie.m < (r 0).specie.m) (hP : 0 ≤ P)
    (heta : ∀ i, (r i).specie.eta = 1 ∨ (r i).specie.eta = -1)
    (hocc : ∀ i p, 0 ≤ p → occAt (r i).specie p = .ok (f i p)) (hf0 : ∀ i p, 0 ≤ p → 0 ≤ f i p)
    (hfm : ∀ i, Measurable (f i)) (hB : BoundedOn r f P B) :
    ∃ I : Fin 3 → ℝ → ℝ,
      (∀ (ps : List ℝ), (∀ p ∈ ps, 0 ≤ p) → ∀ (min1 max1 max2 : ℝ) (sched : List (List ℕ)),
        ValidSchedule ps.length sched →
        integration3Exact r 0 ps min1 max1 max2 sched = .ok (ps.map (I 0)) ∧
        integration3Exact (viewA r) 0 ps min1 max1 P sched = .ok (ps.map (I 1)) ∧
        integration3Exact (viewB r) 0 ps min1 max1 P sched = .ok (ps.map (I 2))) ∧
      (∀ p, 0 < p → I 1 p ≠ 0 → Producible (r 0).specie.m (r 1).specie.m (r 2).specie.m P p) ∧
      (∀ p, 0 < p → I 2 p ≠ 0 → Producible (r 0).specie.m (r 2).specie.m (r 1).specie.m P p) ∧
      (∫ p in Set.Ioi 0, p ^ 2 * I 1 p) = -∫ p in Set.Ioc 0 P, p ^ 2 * I 0 p ∧
      (∫ p in Set.Ioi 0, p ^ 2 * I 2 p) = -∫ p in Set.Ioc 0 P, p ^ 2 * I 0 p ∧
      (∫ p in Set.Ioi 0, p ^ 2 * energyOf (r 1).specie.m p * I 1 p) +
        (∫ p in Set.Ioi 0, p ^ 2 * energyOf (r 2).specie.m p * I 2 p) =
        -∫ p in Set.Ioc 0 P, p ^ 2 * energyOf (r 0).specie.m p * I 0 p := by
  obtain ⟨I, hI, hI1, hI2, hq⟩ := C93_additive r f P B s0 s1 s2 hm0 hm1 hm2 hopen hP heta hocc hf0 hfm hB
  refine ⟨I, hI, hI1, hI2, ?_, ?_, ?_⟩
  · have h := (hq ![fun _ => 1, fun _ => 1, fun _ => 0] ?_ ?_ ?_).2.2.2
    · simp only [Matrix.cons_val_zero, Matrix.cons_val_one, Matrix.cons_val, mul_one, mul_zero, zero_mul,
        integral_zero, add_zero] at h
      linarith
    · intro i; fin_cases i <;> exact measurable_const
    · intro S; refine ⟨1, ?_⟩; intro i E _; fin_cases i <;> simp
    · intro E E'; simp
  · have h := (hq ![fun _ => 1, fun _ => 0, fun _ => 1] ?_ ?_ ?_).2.2.2
    · simp only [Matrix.cons_val_zero, Matrix.cons_val_one, Matrix.cons_val, mul_one, mul_zero, zero_mul,
        integral_zero, add_zero] at h
      linarith
    · intro i; fin_cases i <;> exact measurable_const
    · intro S; refine ⟨1, ?_⟩; intro i E _; fin_cases i <;> simp
    · intro E E'; simp
  · have h := (hq (fun _ E => E) (fun _ => measurable_id) (fun S => ⟨S, fun _ _ h => h⟩)
      (fun _ _ => rfl)).2.2.2
    linarith

end

/-- A species with a measurable, non-negative and bounded occupation number. -/
def Regular (s : CParticle) : Prop :=
  ∃ (f : ℝ → ℝ) (B : ℝ), Measurable f ∧ ∀ p, 0 ≤ p → occAt s p = .ok (f p) ∧ 0 ≤ f p ∧ f p ≤ B

theorem measurable_pieces {κ : Type} [Countable κ] (F : ℝ → ℝ) (S : κ → Set ℝ) (g : κ → ℝ → ℝ)
    (hS : ∀ k, MeasurableSet (S k)) (hg : ∀ k, Measurable (g k)) (hF : ∀ k, ∀ x ∈ S k, F x = g k x)
    (hc : ∀ x, ∃ k, x ∈ S k) : Measurable F := by
  intro A hA
  have : F ⁻¹' A = ⋃ k, S k ∩ g k ⁻¹' A := by
    ext x
    simp only [Set.mem_preimage, Set.mem_iUnion, Set.mem_inter_iff]
    constructor
    · intro h
      obtain ⟨k, hk⟩ := hc x
      exact ⟨k, hk, by rw [← hF k x hk]; exact h⟩
    · rintro ⟨k, hk, h⟩
      rw [hF k x hk]; exact h
  rw [this]
  exact MeasurableSet.iUnion fun k => (hS k).inter (hg k hA)

theorem energy_measurable (m : ℝ) : Measurable fun p => energy p m := by
  unfold energy; fun_prop

theorem interpCell_measurable (a b fa fb m : ℝ) (eta : ℤ) : Measurable fun p => interpCell a b fa fb p m eta := by
  have := energy_measurable m
  unfold interpCell
  dsimp only
  split_ifs
  · exact measurable_const
  · fun_prop
  · exact measurable_const
  · exact measurable_const

/-- Species with stored distributions are regular. -/
theorem regular_stored (s : CParticle) (g : List ℝ) (heq : s.inEq = false) (hg : s.grid = 0 :: g)
    (hs : s.grid.Pairwise (· < ·)) (hlen : s.dist.length = s.grid.length) (hT : 0 < s.T)
    (heta : s.eta = 1 ∨ s.eta = -1) (hd : ∀ d ∈ s.dist, 0 ≤ d ∧ (s.eta = 1 → d < 1)) : Regular s := by
  have hne : s.grid ≠ [] := by rw [hg]; simp
  have hpos : ∀ x ∈ s.grid, 0 ≤ x := by
    intro x hx
    rw [hg] at hx hs
    rcases List.mem_cons.mp hx with rfl | hx
    · exact le_rfl
    · exact ((List.pairwise_cons.mp hs).1 x hx).le
  have hdne : s.dist ≠ [] := by
    intro h; rw [h] at hlen; exact hne (List.length_eq_zero_iff.mp hlen.symm)
  have hbelow : ∀ p, (∀ x ∈ s.grid, p < x) → p < 0 := fun p h => h 0 (by rw [hg]; simp)
  obtain ⟨B, hB⟩ : ∃ B, ∀ d ∈ s.dist, d ≤ B := by
    refine ⟨s.dist.sum, fun d hd' => List.single_le_sum (fun x hx => (hd x hx).1) d hd'⟩
  have hocc : ∀ p, occAt s p = distributionInterpolation s.grid s.dist p s.m s.eta s.T false := by
    intro p; unfold occAt; rw [heq]
  have hcell : ∀ i (hi : i + 1 < s.grid.length) p, s.grid[i] < p → p < s.grid[i + 1] →
      0 ≤ interpCell s.grid[i] s.grid[i + 1] (s.dist[i]'(by omega)) (s.dist[i + 1]'(by omega)) p s.m s.eta ∧
      interpCell s.grid[i] s.grid[i + 1] (s.dist[i]'(by omega)) (s.dist[i + 1]'(by omega)) p s.m s.eta ≤ B := by
    intro i hi p h1 h2
    have hi1 : i < s.dist.length := by omega
    have hi2 : i + 1 < s.dist.length := by omega
    have m1 := List.getElem_mem hi1
    have m2 := List.getElem_mem hi2
    have d1 := hd _ m1
    have d2 := hd _ m2
    have g0 : 0 ≤ s.grid[i] := hpos _ (List.getElem_mem _)
    by_cases hz : s.dist[i + 1] = 0 ∨ s.dist[i] = 0
    · have : interpCell s.grid[i] s.grid[i + 1] (s.dist[i]'(by omega)) (s.dist[i + 1]'(by omega)) p s.m s.eta = 0 := by
        unfold interpCell
        dsimp only
        rw [if_pos hz]
      rw [this]
      exact ⟨le_rfl, d1.1.trans (hB _ m1)⟩
    · push Not at hz
      have e1 : 0 < s.dist[i] := lt_of_le_of_ne d1.1 (Ne.symm hz.2)
      have e2 : 0 < s.dist[i + 1] := lt_of_le_of_ne d2.1 (Ne.symm hz.1)
      have hp2 : [s.grid[i], s.grid[i + 1]].Pairwise (· < ·) := by simp; linarith
      obtain ⟨v, hv, -, c2, c3, -⟩ := C11_between_neighbours [s.grid[i], s.grid[i + 1]]
        [s.dist[i], s.dist[i + 1]] p s.m s.T s.eta hp2 rfl 0 (by simp) g0 h1 h2 heta (by
          intro k hk
          simp only [List.length_cons, List.length_nil] at hk
          interval_cases k
          · exact ⟨e1, d1.2⟩
          · exact ⟨e2, d2.2⟩)
      rw [lookup_between [s.grid[i], s.grid[i + 1]] [s.dist[i], s.dist[i + 1]] p s.m s.T s.eta hp2 rfl 0
        (by simp) h1 h2] at hv
      simp only [List.getElem_cons_zero, List.getElem_cons_succ, Except.ok.injEq] at hv c2
      rw [hv]
      exact ⟨c3.le, c2.trans (max_le (hB _ m1) (hB _ m2))⟩
  have hlast : s.dist.getLast hdne ∈ s.dist := List.getLast_mem hdne
  have htail : ∀ p, (∀ x ∈ s.grid, x < p) →
      s.dist.getLast hdne * Real.exp ((energy (s.grid.getLast hne) s.m - energy p s.m) / s.T) ≤ B := by
    intro p h
    have hl := h _ (List.getLast_mem hne)
    have h0 := hpos _ (List.getLast_mem hne)
    have : Real.exp ((energy (s.grid.getLast hne) s.m - energy p s.m) / s.T) ≤ 1 := by
      rw [Real.exp_le_one_iff]
      apply div_nonpos_of_nonpos_of_nonneg _ hT.le
      linarith [energy_mono (m := s.m) h0 hl.le]
    calc _ ≤ s.dist.getLast hdne * 1 := mul_le_mul_of_nonneg_left this (hd _ hlast).1
      _ ≤ B := by rw [mul_one]; exact hB _ hlast
  refine ⟨fun p => valOf (occAt s p), B, ?_, ?_⟩
  · let S : ℕ ⊕ ℕ ⊕ Bool → Set ℝ := fun k => match k with
      | .inl i => {p | ∃ h : i < s.grid.length, p = s.grid[i]}
      | .inr (.inl i) => {p | ∃ h : i + 1 < s.grid.length, s.grid[i] < p ∧ p < s.grid[i + 1]}
      | .inr (.inr true) => {p | ∀ x ∈ s.grid, x < p}
      | .inr (.inr false) => {p | ∀ x ∈ s.grid, p < x}
    let G : ℕ ⊕ ℕ ⊕ Bool → ℝ → ℝ := fun k => match k with
      | .inl i => fun _ => s.dist.getD i 0
      | .inr (.inl i) => fun p => interpCell (s.grid.getD i 0) (s.grid.getD (i + 1) 0) (s.dist.getD i 0)
          (s.dist.getD (i + 1) 0) p s.m s.eta
      | .inr (.inr true) => fun p => s.dist.getLast hdne *
          Real.exp ((energy (s.grid.getLast hne) s.m - energy p s.m) / s.T)
      | .inr (.inr false) => fun _ => 0
    apply measurable_pieces (fun p => valOf (occAt s p)) S G
    · intro k
      match k with
      | .inl i =>
        by_cases h : i < s.grid.length
        · have : S (.inl i) = {s.grid[i]} := by ext p; simp [S, h]
          rw [this]; exact measurableSet_singleton _
        · have : S (.inl i) = ∅ := by ext p; simp [S, h]
          rw [this]; exact MeasurableSet.empty
      | .inr (.inl i) =>
        by_cases h : i + 1 < s.grid.length
        · have : S (.inr (.inl i)) = Set.Ioo s.grid[i] s.grid[i + 1] := by ext p; simp [S, h]
          rw [this]; exact measurableSet_Ioo
        · have : S (.inr (.inl i)) = ∅ := by ext p; simp [S, h]
          rw [this]; exact MeasurableSet.empty
      | .inr (.inr true) =>
        have : S (.inr (.inr true)) = ⋂ x ∈ {x | x ∈ s.grid}, Set.Ioi x := by ext p; simp [S]
        rw [this]
        exact MeasurableSet.biInter (List.finite_toSet _).countable fun x _ => measurableSet_Ioi
      | .inr (.inr false) =>
        have : S (.inr (.inr false)) = ⋂ x ∈ {x | x ∈ s.grid}, Set.Iio x := by ext p; simp [S]
        rw [this]
        exact MeasurableSet.biInter (List.finite_toSet _).countable fun x _ => measurableSet_Iio
    · intro k
      match k with
      | .inl i => exact measurable_const
      | .inr (.inl i) => exact interpCell_measurable _ _ _ _ _ _
      | .inr (.inr true) =>
        have := energy_measurable s.m
        change Measurable fun p => s.dist.getLast hdne *
          Real.exp ((energy (s.grid.getLast hne) s.m - energy p s.m) / s.T)
        fun_prop
      | .inr (.inr false) => exact measurable_const
    · intro k p hp
      match k with
      | .inl i =>
        obtain ⟨h, rfl⟩ := hp
        have hi : i < s.dist.length := by omega
        simp only [hocc, C09_exact_on_grid s.grid s.dist s.m s.T s.eta hs hlen i h, valOf, G]
        rw [List.getD_eq_getElem _ _ hi]
      | .inr (.inl i) =>
        obtain ⟨h, h1, h2⟩ := hp
        simp only [hocc, lookup_between s.grid s.dist p s.m s.T s.eta hs hlen i h h1 h2, valOf, G]
        rw [List.getD_eq_getElem _ _ (by omega : i < s.grid.length), List.getD_eq_getElem _ _ h,
          List.getD_eq_getElem _ _ (by omega : i < s.dist.length),
          List.getD_eq_getElem _ _ (by omega : i + 1 < s.dist.length)]
      | .inr (.inr true) =>
        simp only [hocc, C09_above s.grid s.dist p s.m s.T s.eta hne hlen hp hdne, valOf, G]
      | .inr (.inr false) =>
        simp only [hocc, C09_below_raises s.grid s.dist p s.m s.T s.eta hne hp, valOf, G]
    · intro p
      rcases grid_cases s.grid p hne hs with h | h | ⟨i, hi, rfl⟩ | ⟨i, hi, h1, h2⟩
      · exact ⟨.inr (.inr true), h⟩
      · exact ⟨.inr (.inr false), h⟩
      · exact ⟨.inl i, hi, rfl⟩
      · exact ⟨.inr (.inl i), hi, h1, h2⟩
  · intro p hp
    simp only [hocc]
    rcases grid_cases s.grid p hne hs with h | h | ⟨i, hi, rfl⟩ | ⟨i, hi, h1, h2⟩
    · rw [C09_above s.grid s.dist p s.m s.T s.eta hne hlen h hdne]
      exact ⟨rfl, mul_nonneg (hd _ hlast).1 (Real.exp_nonneg _), htail p h⟩
    · exact absurd (hbelow p h) (not_lt.mpr hp)
    · have hi2 : i < s.dist.length := by omega
      rw [C09_exact_on_grid s.grid s.dist s.m s.T s.eta hs hlen i hi]
      exact ⟨rfl, (hd _ (List.getElem_mem hi2)).1, hB _ (List.getElem_mem hi2)⟩
    · rw [lookup_between s.grid s.dist p s.m s.T s.eta hs hlen i hi h1 h2]
      exact ⟨rfl, hcell i hi p h1 h2⟩

/-- Species in equilibrium are regular, massless bosons excepted. -/
theorem regular_thermal (s : CParticle) (heq : s.inEq = true) (hT : 0 < s.T) (hm : 0 ≤ s.m)
    (heta : s.eta = 1 ∨ s.eta = -1 ∧ 0 < s.m) : Regular s := by
  have he := energy_measurable s.m
  have hx : ∀ p, Real.exp (s.m / s.T) ≤ Real.exp (energy p s.m / s.T) := by
    intro p
    apply Real.exp_le_exp.mpr
    apply div_le_div_of_nonneg_right _ hT.le
    unfold energy
    exact Real.le_sqrt_of_sq_le (by nlinarith)
  have hd : 0 < Real.exp (s.m / s.T) + s.eta := by
    rcases heta with h | ⟨h, h'⟩
    · rw [h]; push_cast; positivity
    · rw [h]; push_cast
      have : 1 < Real.exp (s.m / s.T) := Real.one_lt_exp_iff.mpr (by positivity)
      linarith
  refine ⟨fun p => 1 / (Real.exp (energy p s.m / s.T) + s.eta), 1 / (Real.exp (s.m / s.T) + s.eta), ?_, ?_⟩
  · fun_prop
  · intro p _
    have := hx p
    refine ⟨?_, ?_, ?_⟩
    · unfold occAt distributionInterpolation
      rw [if_pos heq]
    · apply div_nonneg (by norm_num); linarith
    · exact one_div_le_one_div_of_le hd (by linarith)

/-- **C93 for stored and thermal spectra.** Nothing is assumed about the occupation numbers beyond the shape of the
tables. -/
theorem C93_spectra (r : Fin 3 → Reactant) (P : ℝ)
    (s0 : (r 0).side = -1) (s1 : (r 1).side = 1) (s2 : (r 2).side = 1)
    (hm0 : 0 < (r 0).specie.m) (hm1 : 0 ≤ (r 1).specie.m) (hm2 : 0 ≤ (r 2).specie.m)
    (hopen : (r 1).specie.m + (r 2).specie.m < (r 0).specie.m) (hP : 0 ≤ P)
    (heta : ∀ i, (r i).specie.eta = 1 ∨ (r i).specie.eta = -1)
    (hreg : ∀ i, Regular (r i).specie) :
    ∃ I : Fin 3 → ℝ → ℝ,
      (∀ (ps : List ℝ), (∀ p ∈ ps, 0 ≤ p) → ∀ (min1 max1 max2 : ℝ) (sched : List (List ℕ)),
        ValidSchedule ps.length sched →
        integration3Exact r 0 ps min1 max1 max2 sched = .ok (ps.map (I 0)) ∧
        integration3Exact (viewA r) 0 ps min1 max1 P sched = .ok (ps.map (I 1)) ∧
        integration3Exact (viewB r) 0 ps min1 max1 P sched = .ok (ps.map (I 2))) ∧
      (∀ p, 0 < p → I 1 p ≠ 0 → Producible (r 0).specie.m (r 1).specie.m (r 2).specie.m P p) ∧
      (∀ p, 0 < p → I 2 p ≠ 0 → Producible (r 0).specie.m (r 2).specie.m (r 1).specie.m P p) ∧
      (∫ p in Set.Ioi 0, p ^ 2 * I 1 p) = -∫ p in Set.Ioc 0 P, p ^ 2 * I 0 p ∧
      (∫ p in Set.Ioi 0, p ^ 2 * I 2 p) = -∫ p in Set.Ioc 0 P, p ^ 2 * I 0 p ∧
      (∫ p in Set.Ioi 0, p ^ 2 * energyOf (r 1).specie.m p * I 1 p) +
        (∫ p in Set.Ioi 0, p ^ 2 * energyOf (r 2).specie.m p * I 2 p) =
        -∫ p in Set.Ioc 0 P, p ^ 2 * energyOf (r 0).specie.m p * I 0 p := by
  choose f B hf h using hreg
  have hb : ∀ i p, 0 < p → |f i p| ≤ B 0 + B 1 + B 2 := by
    have hB0 : ∀ i, 0 ≤ B i := fun i => ((h i 0 le_rfl).2.1).trans (h i 0 le_rfl).2.2
    intro i p hp
    rw [abs_of_nonneg (h i p hp.le).2.1]
    refine (h i p hp.le).2.2.trans ?_
    have := hB0 0
    have := hB0 1
    have := hB0 2
    fin_cases i <;> simp <;> linarith
  exact C93_conservation r f P (B 0 + B 1 + B 2) s0 s1 s2 hm0 hm1 hm2 hopen hP heta
    (fun i p hp => (h i p hp).1) (fun i p hp => (h i p hp).2.1) hf
    (fun x y z hx _ hy hz _ _ => ⟨hb 0 x hx, hb 1 y hy, hb 2 z hz⟩)

section Example
/-- `X → a + b`: a particle of mass 2 with a stored spectrum, a massless fermion with a stored spectrum and a thermal
fermion of mass 1. -/
private noncomputable def decayDemo : Fin 3 → Reactant := ![
  ⟨⟨1, 2, [0, 1, 3], [1/2, 1/4, 1/8], false, 1⟩, -1⟩,
  ⟨⟨1, 0, [0, 2], [1/3, 0], false, 1⟩, 1⟩,
  ⟨⟨1, 1, [], [], true, 1⟩, 1⟩]

private theorem decayDemo_regular (i : Fin 3) : Regular (decayDemo i).specie := by
  fin_cases i
  · exact regular_stored _ [1, 3] rfl rfl (by norm_num [decayDemo]) rfl (by norm_num [decayDemo])
      (Or.inl rfl) (by norm_num [decayDemo])
  · exact regular_stored _ [2] rfl rfl (by norm_num [decayDemo]) rfl (by norm_num [decayDemo])
      (Or.inl rfl) (by norm_num [decayDemo])
  · exact regular_thermal _ rfl (by norm_num [decayDemo]) (by norm_num [decayDemo]) (Or.inl rfl)

/-- The three collision integrals of the demonstration decay on the grid `0, 1, 3` of `X`. -/
example : ∃ I : Fin 3 → ℝ → ℝ,
    integration3Exact decayDemo 0 [0, 1, 3] 0 3 3 [[2, 0], [1]] = .ok [I 0 0, I 0 1, I 0 3] ∧
    integration3Exact (viewA decayDemo) 0 [0, 1, 3] 0 3 3 [[2, 0], [1]] = .ok [I 1 0, I 1 1, I 1 3] ∧
    (∫ p in Set.Ioi 0, p ^ 2 * I 1 p) = -∫ p in Set.Ioc 0 3, p ^ 2 * I 0 p ∧
    (∫ p in Set.Ioi 0, p ^ 2 * I 2 p) = ∫ p in Set.Ioi 0, p ^ 2 * I 1 p := by
  obtain ⟨I, hI, -, -, h1, h2, -⟩ := C93_spectra decayDemo 3 rfl rfl rfl (by norm_num [decayDemo])
    (by norm_num [decayDemo]) (by change (0:ℝ) ≤ 1; norm_num) (by change (0:ℝ) + 1 < 2; norm_num) (by norm_num)
    (fun i => by fin_cases i <;> exact Or.inl rfl) decayDemo_regular
  have h := hI [0, 1, 3] (by norm_num) 0 3 3 [[2, 0], [1]] (by change [2, 0, 1].Perm [0, 1, 2]; decide)
  exact ⟨I, h.1, h.2.1, h1, h2.trans h1.symm⟩
end Example

end PyBBN
