import Verif.Props.BalanceScat
import Mathlib.Data.Fintype.Perm
/-!
# Totals of many scatterings
-/
namespace PyBBN
open MeasureTheory

section
variable {S : Type*} (sp : S → CParticle) (f : S → ℝ → ℝ) (P : S → ℝ)

/-- Sides of the particles of `a + b → c + d`. -/
def evSide : Fin 4 → ℤ := ![-1, -1, 1, 1]

/-- The reaction `τ 0 + τ 1 → τ 2 + τ 3`. -/
def evR (τ : Fin 4 → S) : Fin 4 → Reactant := fun i => ⟨sp (τ i), evSide i⟩

theorem evR_sides (τ : Fin 4 → S) : Sides4 (evR sp τ) := ⟨rfl, rfl, rfl, rfl⟩

open Classical in
/-- Statistics of an event, if the particles exist and are inside their grids. -/
noncomputable def evNet (θ : Fin 4 → S) (e : Fin 4 → ℝ) : ℝ :=
  if (∀ i, (sp (θ i)).m ≤ e i) ∧ ∀ i, e i ≤ energyOf (sp (θ i)).m (P (θ i)) then
    netFlux4 (evR sp θ) (fun i => f (θ i) (momOf (sp (θ i)).m (e i))) else 0

theorem mate_symm : ∀ g : Equiv.Perm (Fin 4), g.symm 1 = mate (g.symm 0) ↔ g 1 = mate (g 0) := by decide

theorem mate_view : ∀ (g : Equiv.Perm (Fin 4)), g 1 = mate (g 0) → ∀ j,
    evSide j = -evSide (g.symm 0) * evSide (g.symm j) := by decide

theorem mate_sum (g : Equiv.Perm (Fin 4)) (hg : g 1 = mate (g 0)) (e : Fin 4 → ℝ) (he : e 0 + e 1 = e 2 + e 3) :
    e (g.symm 0) + e (g.symm 1) = e (g.symm 2) + e (g.symm 3) := by
  have h : g.symm 1 = mate (g.symm 0) := (mate_symm g).mpr hg
  rcases perm_cases2 g.symm h with ⟨s0, s1, s2, s3⟩ | ⟨s0, s1, s2, s3⟩ | ⟨s0, s1, s2, s3⟩ | ⟨s0, s1, s2, s3⟩ |
    ⟨s0, s1, s2, s3⟩ | ⟨s0, s1, s2, s3⟩ | ⟨s0, s1, s2, s3⟩ | ⟨s0, s1, s2, s3⟩ <;> rw [s0, s1, s2, s3] <;> linarith

theorem evR_view (τ : Fin 4 → S) (g : Equiv.Perm (Fin 4)) (hg : g 1 = mate (g 0)) :
    evR sp τ = viewOf (evR sp (τ ∘ g)) g.symm (-evSide (g.symm 0)) := by
  funext j
  unfold evR viewOf
  simp only [Function.comp_apply, Equiv.apply_symm_apply]
  rw [← mate_view g hg j]

theorem viewMs_back (Ms : List CM) (g : Equiv.Perm (Fin 4)) : viewMs (viewMs Ms g) g.symm = Ms := by
  unfold viewMs
  rw [List.map_map]
  conv_rhs => rw [← List.map_id Ms]
  apply List.map_congr_left
  intro M _
  simp

open Classical in
/-- The rate of one term in the order of the events. -/
theorem rate_view (τ : Fin 4 → S) (Ms : List CM)
    (hc : Confined (evR sp τ) (fun i => f (τ i)) (fun i => P (τ i))) (g : Equiv.Perm (Fin 4)) (hg : g 1 = mate (g 0))
    (e : Fin 4 → ℝ) (he : e 0 + e 1 = e 2 + e 3) :
    rateBoxed (evR sp τ) Ms (fun i => f (τ i)) (fun i => P (τ i)) (-1) (e ∘ g.symm) =
      -(evSide (g.symm 0) : ℝ) * kern (evR sp (τ ∘ g)) (viewMs Ms g) (fun i => momOf (sp (τ (g i))).m (e i)) e *
        evNet sp f P (τ ∘ g) e := by
  have hs : -evSide (g.symm 0) = 1 ∨ -evSide (g.symm 0) = -1 := by
    generalize g.symm 0 = i
    fin_cases i <;> decide
  have hnet : netFlux4 (evR sp τ) (fun i => f (τ i) (momOf (sp (τ i)).m (e (g.symm i)))) = ((-evSide (g.symm 0) : ℤ) : ℝ) *
      netFlux4 (evR sp (τ ∘ g)) (fun i => f (τ (g i)) (momOf (sp (τ (g i))).m (e i))) := by
    unfold netFlux4
    rw [← flux_net (evR sp (τ ∘ g)) (fun i => f (τ (g i)) (momOf (sp (τ (g i))).m (e i))) g.symm _ hs, ← evR_view sp τ g hg]
    have : (fun i => f (τ (g i)) (momOf (sp (τ (g i))).m (e i))) ∘ g.symm =
        fun i => f (τ i) (momOf (sp (τ i)).m (e (g.symm i))) := by
      funext i
      simp
    rw [this]
  have hkern : kern (evR sp τ) Ms (fun i => momOf (sp (τ i)).m (e (g.symm i))) (e ∘ g.symm) =
      kern (evR sp (τ ∘ g)) (viewMs Ms g) (fun i => momOf (sp (τ (g i))).m (e i)) e := by
    rw [← kern_view (evR sp (τ ∘ g)) (viewMs Ms g) g.symm _ hs, ← evR_view sp τ g hg, viewMs_back]
    congr 1
    funext i
    simp
  have hm : (∀ i, (sp (τ i)).m ≤ e (g.symm i)) ↔ ∀ i, (sp (τ (g i))).m ≤ e i :=
    ⟨fun h i => by simpa using h (g i), fun h i => by simpa using h (g.symm i)⟩
  have hb : (∀ i, e (g.symm i) ≤ energyOf (sp (τ i)).m (P (τ i))) ↔ ∀ i, e i ≤ energyOf (sp (τ (g i))).m (P (τ (g i))) :=
    ⟨fun h i => by simpa using h (g i), fun h i => by simpa using h (g.symm i)⟩
  have hb2 : (∀ i, e (g.symm i) ≤ energyOf (sp (τ i)).m (P (τ i))) ↔
      (e (g.symm 0) ≤ energyOf (sp (τ 0)).m (P (τ 0)) ∧ e (g.symm 1) ≤ energyOf (sp (τ 1)).m (P (τ 1))) ∧
      (e (g.symm 2) ≤ energyOf (sp (τ 2)).m (P (τ 2)) ∧ e (g.symm 3) ≤ energyOf (sp (τ 3)).m (P (τ 3))) := by
    rw [Fin.forall_fin_succ, Fin.forall_fin_succ, Fin.forall_fin_succ, Fin.forall_fin_one]
    exact ⟨fun ⟨a, b, c, d⟩ => ⟨⟨a, b⟩, c, d⟩, fun ⟨⟨a, b⟩, c, d⟩ => ⟨a, b, c, d⟩⟩
  have hg2 : InGrids (evR sp τ) (fun i => P (τ i)) (-1) (e ∘ g.symm) ↔
      e (g.symm 0) ≤ energyOf (sp (τ 0)).m (P (τ 0)) ∧ e (g.symm 1) ≤ energyOf (sp (τ 1)).m (P (τ 1)) := by
    constructor
    · intro h
      exact ⟨h 0 rfl, h 1 rfl⟩
    · rintro ⟨a, b⟩ i hi
      fin_cases i
      · exact a
      · exact b
      · exact absurd (show evSide 2 = -1 from hi) (by decide)
      · exact absurd (show evSide 3 = -1 from hi) (by decide)
  unfold rateBoxed rate4 evNet
  change (if InGrids (evR sp τ) (fun i => P (τ i)) (-1) (e ∘ g.symm) then
    (if ∀ i, (sp (τ i)).m ≤ e (g.symm i) then kern (evR sp τ) Ms (fun i => momOf (sp (τ i)).m (e (g.symm i))) (e ∘ g.symm) *
      netFlux4 (evR sp τ) (fun i => f (τ i) (momOf (sp (τ i)).m (e (g.symm i)))) else 0) else 0) = _ *
    (if (∀ i, (sp (τ (g i))).m ≤ e i) ∧ (∀ i, e i ≤ energyOf (sp (τ (g i))).m (P (τ (g i)))) then
      netFlux4 (evR sp (τ ∘ g)) (fun i => f (τ (g i)) (momOf (sp (τ (g i))).m (e i))) else 0)
  rw [hkern, hnet]
  by_cases h1 : ∀ i, (sp (τ i)).m ≤ e (g.symm i)
  · by_cases h0 : netFlux4 (evR sp τ) (fun i => f (τ i) (momOf (sp (τ i)).m (e (g.symm i)))) = 0
    · have h0' := h0
      rw [hnet] at h0'
      have hz : netFlux4 (evR sp (τ ∘ g)) (fun i => f (τ (g i)) (momOf (sp (τ (g i))).m (e i))) = 0 := by
        rcases mul_eq_zero.mp h0' with h | h
        · exfalso
          rcases hs with h' | h' <;> rw [h'] at h <;> norm_num at h
        · exact h
      rw [hz]
      simp
    · have hcc := hc (e ∘ g.symm) (mate_sum g hg e he) h1 h0
      by_cases h2 : InGrids (evR sp τ) (fun i => P (τ i)) (-1) (e ∘ g.symm)
      · have h3 := hb.mp (hb2.mpr ⟨hg2.mp h2, hcc.mp (hg2.mp h2)⟩)
        rw [if_pos h2, if_pos h1, if_pos ⟨hm.mp h1, h3⟩]
        push_cast
        ring
      · rw [if_neg h2, if_neg, mul_zero]
        rintro ⟨-, h3⟩
        exact h2 (hg2.mpr (hb2.mp (hb.mpr h3)).1)
  · have h2 : ¬ ((∀ i, (sp (τ (g i))).m ≤ e i) ∧ ∀ i, e i ≤ energyOf (sp (τ (g i))).m (P (τ (g i)))) :=
      fun h => h1 (hm.mpr h.1)
    rw [if_neg h1, if_neg h2, mul_zero]
    split_ifs <;> rfl

open Classical in
/-- All positions of an event are fed with the same kernel by the terms of a family. -/
def AmpBalanced {ι : Type*} [Fintype ι] (τ : ι → Fin 4 → S) (Ms : ι → List CM) : Prop :=
  ∀ (θ : Fin 4 → S) (p E : Fin 4 → ℝ), ∃ B : ℝ, ∀ i : Fin 4, ∑ n, ∑ g : Equiv.Perm (Fin 4),
    (if g i = 0 ∧ g (mate i) = 1 ∧ τ n ∘ g = θ then kern (evR sp θ) (viewMs (Ms n) g) p E else 0) = B

variable {sp f P}

theorem mate_at (g : Equiv.Perm (Fin 4)) (i : Fin 4) : (g 1 = mate (g 0) ∧ g.symm 0 = i) ↔ g i = 0 ∧ g (mate i) = 1 := by
  rw [← mate_symm]
  constructor
  · rintro ⟨h, rfl⟩
    refine ⟨by simp, ?_⟩
    rw [← h]; simp
  · rintro ⟨h, h'⟩
    have : g.symm 0 = i := by rw [← h]; simp
    refine ⟨?_, this⟩
    rw [this, ← h']; simp

open Classical in
/-- Kernel with which a family feeds position `i` of the event `θ`. -/
noncomputable def evTotal (sp : S → CParticle) {ι : Type*} [Fintype ι] (τ : ι → Fin 4 → S) (Ms : ι → List CM) (θ : Fin 4 → S) (i : Fin 4)
    (p E : Fin 4 → ℝ) : ℝ := ∑ n, ∑ g : Equiv.Perm (Fin 4),
  (if g i = 0 ∧ g (mate i) = 1 ∧ τ n ∘ g = θ then kern (evR sp θ) (viewMs (Ms n) g) p E else 0)

open Classical in
/-- The events of a family. -/
noncomputable def evSet {ι : Type*} [Fintype ι] (τ : ι → Fin 4 → S) : Finset (Fin 4 → S) :=
  ((Finset.univ : Finset (ι × Equiv.Perm (Fin 4))).filter fun x => x.2 1 = mate (x.2 0)).image fun x => τ x.1 ∘ x.2

open Classical in
/-- The weighted rates of a family, event by event. -/
theorem events_sum {ι : Type*} [Fintype ι] (τ : ι → Fin 4 → S) (Ms : ι → List CM)
    (hc : ∀ n, Confined (evR sp (τ n)) (fun i => f (τ n i)) (fun i => P (τ n i))) (q : S → ℝ → ℝ)
    (e : Fin 4 → ℝ) (he : e 0 + e 1 = e 2 + e 3) :
    ∑ n, ∑ g : Equiv.Perm (Fin 4), (if g 1 = mate (g 0) then q (τ n 0) (e (g.symm 0)) *
      rateBoxed (evR sp (τ n)) (Ms n) (fun i => f (τ n i)) (fun i => P (τ n i)) (-1) (e ∘ g.symm) else 0) =
    ∑ θ ∈ evSet τ, ∑ i : Fin 4, -(evSide i : ℝ) * q (θ i) (e i) * evNet sp f P θ e *
      evTotal sp τ Ms θ i (fun i => momOf (sp (θ i)).m (e i)) e := by
  let K : ι → Equiv.Perm (Fin 4) → (Fin 4 → S) → ℝ := fun n g θ =>
    kern (evR sp θ) (viewMs (Ms n) g) (fun i => momOf (sp (θ i)).m (e i)) e
  let Θ : Finset (Fin 4 → S) := ((Finset.univ : Finset (ι × Equiv.Perm (Fin 4))).filter
    fun x => x.2 1 = mate (x.2 0)).image fun x => τ x.1 ∘ x.2
  have split : ∀ (n : ι) (g : Equiv.Perm (Fin 4)), (if g 1 = mate (g 0) then q (τ n 0) (e (g.symm 0)) *
      rateBoxed (evR sp (τ n)) (Ms n) (fun i => f (τ n i)) (fun i => P (τ n i)) (-1) (e ∘ g.symm) else 0) =
      ∑ θ ∈ Θ, ∑ i : Fin 4, -(evSide i : ℝ) * q (θ i) (e i) * evNet sp f P θ e *
        (if g i = 0 ∧ g (mate i) = 1 ∧ τ n ∘ g = θ then K n g θ else 0) := by
    intro n g
    by_cases h : g 1 = mate (g 0)
    · have hmem : τ n ∘ g ∈ Θ := Finset.mem_image.mpr ⟨(n, g), Finset.mem_filter.mpr ⟨Finset.mem_univ _, h⟩, rfl⟩
      rw [Finset.sum_eq_single_of_mem _ hmem]
      · rw [Finset.sum_eq_single_of_mem (g.symm 0) (Finset.mem_univ _)]
        · have h' := (mate_at g (g.symm 0)).mp ⟨h, rfl⟩
          rw [if_pos h, if_pos ⟨h'.1, h'.2, rfl⟩, rate_view sp f P (τ n) (Ms n) (hc n) g h e he]
          have : (τ n ∘ g) (g.symm 0) = τ n 0 := by simp
          rw [this]
          change _ * (_ * K n g (τ n ∘ g) * _) = _
          ring
        · intro i _ hi
          rw [if_neg, mul_zero]
          rintro ⟨a, b, -⟩
          exact hi ((mate_at g _).mpr ⟨a, b⟩).2.symm
      · intro θ _ hθ
        apply Finset.sum_eq_zero
        intro i _
        rw [if_neg, mul_zero]
        rintro ⟨-, -, h⟩
        exact hθ h.symm
    · rw [if_neg h]
      symm
      apply Finset.sum_eq_zero
      intro θ _
      apply Finset.sum_eq_zero
      intro i _
      rw [if_neg, mul_zero]
      rintro ⟨a, b, -⟩
      exact h ((mate_at g _).mpr ⟨a, b⟩).1
  simp only [split]
  have sw : ∑ n, ∑ g : Equiv.Perm (Fin 4), ∑ θ ∈ Θ, ∑ i : Fin 4, -(evSide i : ℝ) * q (θ i) (e i) * evNet sp f P θ e *
        (if g i = 0 ∧ g (mate i) = 1 ∧ τ n ∘ g = θ then K n g θ else 0) =
      ∑ θ ∈ Θ, ∑ i : Fin 4, -(evSide i : ℝ) * q (θ i) (e i) * evNet sp f P θ e *
        ∑ n, ∑ g : Equiv.Perm (Fin 4), (if g i = 0 ∧ g (mate i) = 1 ∧ τ n ∘ g = θ then K n g θ else 0) := by
    simp only [Finset.mul_sum]
    rw [Finset.sum_congr rfl fun n _ => Finset.sum_comm]
    rw [Finset.sum_comm]
    apply Finset.sum_congr rfl
    intro θ _
    rw [Finset.sum_congr rfl fun n _ => Finset.sum_comm]
    exact Finset.sum_comm
  exact sw

open Classical in
/-- The weighted events of a balanced family cancel one by one. -/
theorem events_zero {ι : Type*} [Fintype ι] (τ : ι → Fin 4 → S) (Ms : ι → List CM) (hb : AmpBalanced sp τ Ms)
    (hc : ∀ n, Confined (evR sp (τ n)) (fun i => f (τ n i)) (fun i => P (τ n i))) (q : S → ℝ → ℝ)
    (hadd : ∀ n x y z w, x + y = z + w → q (τ n 0) x + q (τ n 1) y = q (τ n 2) z + q (τ n 3) w)
    (e : Fin 4 → ℝ) (he : e 0 + e 1 = e 2 + e 3) :
    ∑ n, ∑ g : Equiv.Perm (Fin 4), (if g 1 = mate (g 0) then q (τ n 0) (e (g.symm 0)) *
      rateBoxed (evR sp (τ n)) (Ms n) (fun i => f (τ n i)) (fun i => P (τ n i)) (-1) (e ∘ g.symm) else 0) = 0 := by
  rw [events_sum τ Ms hc q e he]
  apply Finset.sum_eq_zero
  intro θ hθ
  obtain ⟨⟨n, g⟩, hg, rfl⟩ := Finset.mem_image.mp hθ
  obtain ⟨B, hB⟩ := hb (τ n ∘ g) (fun i => momOf (sp ((τ n ∘ g) i)).m (e i)) e
  have hgm : g 1 = mate (g 0) := (Finset.mem_filter.mp hg).2
  have add := hadd n _ _ _ _ (mate_sum g hgm e he)
  have sums : ∑ i, (evSide i : ℝ) * q ((τ n ∘ g) i) (e i) = 0 := by
    have hs := mate_view g hgm
    have e1 : ∑ i, (evSide i : ℝ) * q ((τ n ∘ g) i) (e i) = ∑ j, (evSide (g.symm j) : ℝ) * q (τ n j) (e (g.symm j)) := by
      rw [← Equiv.sum_comp g.symm]
      simp
    obtain ⟨c, e2⟩ : ∃ c : ℝ, ∀ j, (evSide (g.symm j) : ℝ) = -c * evSide j := by
      refine ⟨(evSide (g.symm 0) : ℝ), fun j => ?_⟩
      have a := hs j
      have b : evSide (g.symm 0) * evSide (g.symm 0) = 1 := by
        generalize g.symm 0 = k
        fin_cases k <;> rfl
      have : evSide (g.symm j) = -evSide (g.symm 0) * evSide j := by
        rw [a]
        linear_combination -evSide (g.symm j) * b
      rw [this]; push_cast; ring
    rw [e1]
    simp only [e2]
    rw [Fin.sum_univ_four]
    change -c * ((-1 : ℤ) : ℝ) * _ + -c * ((-1 : ℤ) : ℝ) * _ + -c * ((1 : ℤ) : ℝ) * _ + -c * ((1 : ℤ) : ℝ) * _ = 0
    push_cast
    linear_combination c * add
  have : ∀ i, evTotal sp τ Ms (τ n ∘ g) i (fun i => momOf (sp ((τ n ∘ g) i)).m (e i)) e = B := hB
  simp only [this]
  have fac : ∀ i, -(evSide i : ℝ) * q ((τ n ∘ g) i) (e i) * evNet sp f P (τ n ∘ g) e * B =
      (evSide i : ℝ) * q ((τ n ∘ g) i) (e i) * (-(evNet sp f P (τ n ∘ g) e * B)) := fun i => by ring
  simp only [fac]
  rw [← Finset.sum_mul, sums, zero_mul]

theorem Nice3.sum {κ : Type*} (s : Finset κ) (H : κ → ℝ → ℝ → ℝ → ℝ) (h : ∀ k ∈ s, Nice3 (H k)) :
    Nice3 fun x y z => ∑ k ∈ s, H k x y z := by
  classical
  induction s using Finset.induction_on with
  | empty => exact ⟨by simpa using measurable_const, ⟨0, by simp⟩, ⟨0, by simp⟩⟩
  | insert k s hk ih =>
    have a := h k (Finset.mem_insert_self ..)
    have b := ih fun j hj => h j (Finset.mem_insert_of_mem hj)
    simp only [Finset.sum_insert hk]
    obtain ⟨C, hC⟩ := a.bdd
    obtain ⟨D, hD⟩ := b.bdd
    obtain ⟨R, hR⟩ := a.box
    obtain ⟨T, hT⟩ := b.box
    refine ⟨a.meas.add b.meas, ⟨C + D, fun x y z => (abs_add_le _ _).trans (add_le_add (hC x y z) (hD x y z))⟩,
      ⟨max R T, fun x y z hne => ?_⟩⟩
    by_cases h0 : H k x y z = 0
    · obtain ⟨u, v, w⟩ := hT x y z fun h1 => hne (by rw [h0, h1, add_zero])
      exact ⟨le_max_of_le_right u, le_max_of_le_right v, le_max_of_le_right w⟩
    · obtain ⟨u, v, w⟩ := hR x y z h0
      exact ⟨le_max_of_le_left u, le_max_of_le_left v, le_max_of_le_left w⟩

theorem Nice3.sum_integral {κ : Type*} (s : Finset κ) (H : κ → ℝ → ℝ → ℝ → ℝ) (h : ∀ k ∈ s, Nice3 (H k)) :
    ∑ k ∈ s, ∫ x, ∫ y, ∫ z, H k x y z = ∫ x, ∫ y, ∫ z, ∑ k ∈ s, H k x y z := by
  rw [← integral_finset_sum s fun k hk => (h k hk).inner.inner]
  congr 1
  funext x
  rw [← integral_finset_sum s fun k hk => (h k hk).inner.slice x]
  congr 1
  funext y
  rw [← integral_finset_sum s fun k hk => ((h k hk).slice x).slice y]

open Classical in
/-- Sum of the weighted rates of a family over all its views of an event. -/
noncomputable def evSum (sp : S → CParticle) (f : S → ℝ → ℝ) (P : S → ℝ) {ι : Type*} [Fintype ι] (τ : ι → Fin 4 → S) (Ms : ι → List CM)
    (q : S → ℝ → ℝ) (e : Fin 4 → ℝ) : ℝ :=
  ∑ n, ∑ g : Equiv.Perm (Fin 4), (if g 1 = mate (g 0) then q (τ n 0) (e (g.symm 0)) *
    rateBoxed (evR sp (τ n)) (Ms n) (fun i => f (τ n i)) (fun i => P (τ n i)) (-1) (e ∘ g.symm) else 0)

/-- Number of the views of an event. -/
def evViews : ℕ := ((Finset.univ : Finset (Equiv.Perm (Fin 4))).filter fun g => g 1 = mate (g 0)).card

theorem evViews_pos : 0 < evViews :=
  Finset.card_pos.mpr ⟨1, Finset.mem_filter.mpr ⟨Finset.mem_univ _, rfl⟩⟩

open Classical in
/-- The weighted totals of a family as an integral over events. -/
theorem events_integral {ι : Type*} [Fintype ι] (τ : ι → Fin 4 → S) (Ms : ι → List CM)
    (d : ∀ n, Scatter4 (evR sp (τ n)) (Ms n) (fun i => f (τ n i))) (q : S → ℝ → ℝ)
    (hq : ∀ s, Measurable (q s)) (hqb : ∀ s R, ∃ C, ∀ E, |E| ≤ R → |q s E| ≤ C) :
    Nice3 (fun x y z => evSum sp f P τ Ms q (conserve2 x y z)) ∧
    (evViews : ℝ) * (∑ n, ∫ a, q (τ n 0) a * ∫ b, ∫ c,
      rateBoxed (evR sp (τ n)) (Ms n) (fun i => f (τ n i)) (fun i => P (τ n i)) (-1) (place2 1 a b c)) =
      ∫ x, ∫ y, ∫ z, evSum sp f P τ Ms q (conserve2 x y z) := by
  let ev : ι → (Fin 4 → ℝ) → ℝ := fun n =>
    rateBoxed (evR sp (τ n)) (Ms n) (fun i => f (τ n i)) (fun i => P (τ n i)) (-1)
  let F : ι → (Fin 4 → ℝ) → ℝ := fun n e => q (τ n 0) (e 0) * ev n e
  let G : Finset (Equiv.Perm (Fin 4)) := Finset.univ.filter fun g => g 1 = mate (g 0)
  have hev : ∀ n, Nice3 fun x y z => ev n (conserve2 x y z) := fun n => (d n).nice' (-1) (Or.inr rfl)
  have hF : ∀ n, Nice3 fun x y z => F n (conserve2 x y z) := fun n =>
    nice_weight (hev n) (q (τ n 0)) (hq _) (hqb _) 0
  have h1 : ∀ n, ∫ a, q (τ n 0) a * ∫ b, ∫ c, ev n (place2 1 a b c) = ∫ x, ∫ y, ∫ z, F n (conserve2 x y z) := fun n =>
    (view_total (hev n) (q (τ n 0)) (hq _) (hqb _) 1 rfl).2
  have hN : ∀ k ∈ (Finset.univ ×ˢ G : Finset (ι × Equiv.Perm (Fin 4))), Nice3 fun a b c => F k.1 (place2 k.2 a b c) := fun x hx =>
    (place2_total (F x.1) (hF x.1) x.2 (Finset.mem_filter.mp (Finset.mem_product.mp hx).2).2).1
  have e : ∀ x y z, evSum sp f P τ Ms q (conserve2 x y z) =
      ∑ k ∈ (Finset.univ ×ˢ G : Finset (ι × Equiv.Perm (Fin 4))), F k.1 (place2 k.2 x y z) := by
    intro x y z
    unfold evSum
    rw [Finset.sum_product]
    apply Finset.sum_congr rfl
    intro n _
    rw [Finset.sum_filter]
    rfl
  refine ⟨by simp only [e]; exact Nice3.sum _ _ hN, ?_⟩
  change (evViews : ℝ) * (∑ n, ∫ a, q (τ n 0) a * ∫ b, ∫ c, ev n (place2 1 a b c)) = _
  simp only [h1]
  have h2 : ∀ n, (G.card : ℝ) * ∫ x, ∫ y, ∫ z, F n (conserve2 x y z) =
      ∑ g ∈ G, ∫ x, ∫ y, ∫ z, F n (place2 g x y z) := by
    intro n
    rw [Finset.sum_congr rfl fun g hg => (place2_total (F n) (hF n) g (Finset.mem_filter.mp hg).2).2,
      Finset.sum_const, nsmul_eq_mul]
  simp only [e]
  rw [Finset.mul_sum]
  refine Eq.trans ?_ (Nice3.sum_integral (Finset.univ ×ˢ G) (fun k a b c => F k.1 (place2 k.2 a b c)) hN)
  rw [Finset.sum_product]
  exact Finset.sum_congr rfl fun n _ => h2 n

open Classical in
/-- The weighted totals of a balanced family add up to zero. -/
theorem events_total {ι : Type*} [Fintype ι] (τ : ι → Fin 4 → S) (Ms : ι → List CM) (hb : AmpBalanced sp τ Ms)
    (d : ∀ n, Scatter4 (evR sp (τ n)) (Ms n) (fun i => f (τ n i)))
    (hc : ∀ n, Confined (evR sp (τ n)) (fun i => f (τ n i)) (fun i => P (τ n i))) (q : S → ℝ → ℝ)
    (hq : ∀ s, Measurable (q s)) (hqb : ∀ s R, ∃ C, ∀ E, |E| ≤ R → |q s E| ≤ C)
    (hadd : ∀ n x y z w, x + y = z + w → q (τ n 0) x + q (τ n 1) y = q (τ n 2) z + q (τ n 3) w) :
    ∑ n, ∫ a, q (τ n 0) a * ∫ b, ∫ c,
      rateBoxed (evR sp (τ n)) (Ms n) (fun i => f (τ n i)) (fun i => P (τ n i)) (-1) (place2 1 a b c) = 0 := by
  have h := (events_integral (P := P) τ Ms d q hq hqb).2
  rw [integral_zero3 (F := fun x y z => evSum sp f P τ Ms q (conserve2 x y z)) fun x y z => events_zero τ Ms hb hc q hadd (conserve2 x y z) (by change x + y = z + (x + y - z); ring)] at h
  exact (mul_eq_zero.mp h).resolve_left (by exact_mod_cast evViews_pos.ne')

end

end PyBBN
