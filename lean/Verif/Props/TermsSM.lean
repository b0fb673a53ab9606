import Verif.Props.TermsTotal
import Mathlib.Algebra.Order.BigOperators.Group.Multiset
/-!
# C106: the Standard Model processes of neutrinos and leptons in the equations of their participants
-/
namespace PyBBN

set_option linter.unusedSectionVars false

section
variable {S : Type*} [DecidableEq S] (A : LibAttr S) (c : LibConst)

/-! ## Counting the ways to divide the legs -/

theorem sublist_same {α : Type*} [DecidableEq α] {l a b : List α} (hl : l.Nodup) (ha : a.Sublist l) (hb : b.Sublist l)
    (h : ∀ x, x ∈ a ↔ x ∈ b) : a = b := by
  induction l generalizing a b with
  | nil => rw [List.sublist_nil.mp ha, List.sublist_nil.mp hb]
  | cons y l ih =>
    obtain ⟨hy, hl⟩ := List.nodup_cons.mp hl
    have nin : ∀ {t : List α}, t.Sublist l → y ∉ t := fun ht hm => hy (ht.subset hm)
    cases ha with
    | cons _ ha =>
      cases hb with
      | cons _ hb => exact ih hl ha hb h
      | cons_cons _ hb => exact absurd ((h y).mpr (List.mem_cons_self ..)) (nin ha)
    | cons_cons _ ha =>
      rename_i a
      cases hb with
      | cons _ hb => exact absurd ((h y).mp (List.mem_cons_self ..)) (nin hb)
      | cons_cons _ hb =>
        rename_i b
        refine congrArg _ (ih hl ha hb fun x => ?_)
        have hx := h x
        simp only [List.mem_cons] at hx
        constructor
        · intro hm
          rcases hx.mp (Or.inr hm) with rfl | h'
          · exact absurd hm (nin ha)
          · exact h'
        · intro hm
          rcases hx.mpr (Or.inr hm) with rfl | h'
          · exact absurd hm (nin hb)
          · exact h'

/-- The sets of legs with the species `L`, the others having the species `R`. -/
def splits (ls : List (Item S)) (L R : Multiset S) : Finset (Finset (Item S)) :=
  ls.toFinset.powerset.filter fun T => T.val.map (·.specie) = L ∧ (ls.toFinset \ T).val.map (·.specie) = R

theorem splits_comm (ls : List (Item S)) (L R : Multiset S) : (splits ls L R).card = (splits ls R L).card := by
  refine Finset.card_bij (fun T _ => ls.toFinset \ T) ?_ ?_ ?_
  · intro T hT
    simp only [splits, Finset.mem_filter, Finset.mem_powerset] at hT ⊢
    refine ⟨Finset.sdiff_subset, hT.2.2, ?_⟩
    rw [Finset.sdiff_sdiff_eq_self hT.1]
    exact hT.2.1
  · intro T hT T' hT' e
    simp only [splits, Finset.mem_filter, Finset.mem_powerset] at hT hT'
    rw [← Finset.sdiff_sdiff_eq_self hT.1, e, Finset.sdiff_sdiff_eq_self hT'.1]
  · intro T hT
    simp only [splits, Finset.mem_filter, Finset.mem_powerset] at hT
    refine ⟨ls.toFinset \ T, ?_, Finset.sdiff_sdiff_eq_self hT.1⟩
    simp only [splits, Finset.mem_filter, Finset.mem_powerset]
    refine ⟨Finset.sdiff_subset, hT.2.2, ?_⟩
    rw [Finset.sdiff_sdiff_eq_self hT.1]
    exact hT.2.1

theorem toFinset_species (l : List (Item S)) (h : l.Nodup) :
    l.toFinset.val.map (·.specie) = ((l.map (·.specie) : List S) : Multiset S) := by
  rw [List.toFinset_val, h.dedup]; rfl

/-- Choices with a leading leg are divisions of the legs with a leg marked on the left. -/
theorem countIn_splits (lead : Item S → Bool) (ls : List (Item S)) (hn : ls.Nodup) (s : S) (L R : Multiset S) :
    countIn lead ls s L R =
      ∑ T ∈ splits ls L R, (T.filter fun o => lead o = true ∧ o.specie = s).card := by
  unfold countIn
  rw [← List.toFinset_card_of_nodup ((choices_nodup ls hn).filter _), ← Finset.card_sigma]
  have body : ∀ x ∈ choices ls, (x.1 :: x.2).Nodup ∧ (x.1 :: x.2).toFinset ⊆ ls.toFinset ∧
      ls.toFinset \ (x.1 :: x.2).toFinset = (otherLegs ls x).toFinset ∧ (otherLegs ls x).Nodup := by
    intro x hx
    have hp := choice_perm ls hn x hx
    have hnd := hp.nodup_iff.mpr hn
    rw [← List.cons_append, List.nodup_append] at hnd
    refine ⟨hnd.1, ?_, ?_, hnd.2.1⟩
    · intro y hy
      rw [List.mem_toFinset] at hy ⊢
      refine hp.mem_iff.mp ?_
      rw [← List.cons_append]
      exact List.mem_append_left _ hy
    · ext y
      rw [Finset.mem_sdiff, List.mem_toFinset, List.mem_toFinset, List.mem_toFinset, ← hp.mem_iff, ← List.cons_append,
        List.mem_append]
      constructor
      · rintro ⟨h | h, h'⟩
        · exact absurd h h'
        · exact h
      · intro h
        exact ⟨Or.inr h, fun h' => hnd.2.2 y h' y h rfl⟩
  refine Finset.card_bij (fun x _ => (⟨(x.1 :: x.2).toFinset, x.1⟩ : Sigma fun _ : Finset (Item S) => Item S)) ?_ ?_ ?_
  · intro x hx
    rw [List.mem_toFinset, List.mem_filter] at hx
    obtain ⟨hx, hc⟩ := hx
    simp only [Bool.and_eq_true, decide_eq_true_eq] at hc
    obtain ⟨b1, b2, b3, b4⟩ := body x hx
    simp only [Finset.mem_sigma, splits, Finset.mem_filter, Finset.mem_powerset]
    refine ⟨⟨b2, ?_, ?_⟩, ?_, hc.1.1.1, hc.1.1.2⟩
    · rw [toFinset_species _ b1]; exact hc.1.2
    · rw [b3, toFinset_species _ b4]; exact hc.2
    · simp
  · intro x hx y hy e
    rw [List.mem_toFinset, List.mem_filter] at hx hy
    obtain ⟨e1, e2⟩ := Sigma.mk.inj e
    have e2 : x.1 = y.1 := eq_of_heq e2
    obtain ⟨-, x2⟩ := (mem_choices ls x).mp hx.1
    obtain ⟨-, y2⟩ := (mem_choices ls y).mp hy.1
    refine Prod.ext e2 (sublist_same (hn.erase x.1) x2 (e2 ▸ y2) fun z => ?_)
    have nx := (List.nodup_cons.mp (body x hx.1).1).1
    have ny := (List.nodup_cons.mp (body y hy.1).1).1
    have hz : z ∈ (x.1 :: x.2).toFinset ↔ z ∈ (y.1 :: y.2).toFinset := by rw [e1]
    simp only [List.mem_toFinset, List.mem_cons] at hz
    constructor
    · intro h
      rcases hz.mp (Or.inr h) with h' | h'
      · exact absurd h (by rw [h', ← e2]; exact nx)
      · exact h'
    · intro h
      rcases hz.mpr (Or.inr h) with h' | h'
      · exact absurd h (by rw [h', e2]; exact ny)
      · exact h'
  · rintro ⟨T, o⟩ hT
    simp only [Finset.mem_sigma, splits, Finset.mem_filter, Finset.mem_powerset] at hT
    obtain ⟨⟨t1, t2, t3⟩, t4, t5, t6⟩ := hT
    have ho : o ∈ ls := List.mem_toFinset.mp (t1 t4)
    have hx : ((o, (ls.erase o).filter (· ∈ T)) : Item S × List (Item S)) ∈ choices ls :=
      (mem_choices ls _).mpr ⟨ho, List.filter_sublist⟩
    have hT : (o :: (ls.erase o).filter (· ∈ T)).toFinset = T := by
      ext z
      simp only [List.mem_toFinset, List.mem_cons, List.mem_filter, decide_eq_true_eq]
      constructor
      · rintro (rfl | h)
        · exact t4
        · exact h.2
      · intro h
        by_cases hz : z = o
        · exact Or.inl hz
        · exact Or.inr ⟨(List.mem_erase_of_ne hz).mpr (List.mem_toFinset.mp (t1 h)), h⟩
    obtain ⟨b1, b2, b3, b4⟩ := body _ hx
    refine ⟨(o, (ls.erase o).filter (· ∈ T)), ?_, ?_⟩
    · rw [List.mem_toFinset, List.mem_filter]
      refine ⟨hx, ?_⟩
      simp only [Bool.and_eq_true, decide_eq_true_eq]
      refine ⟨⟨⟨t5, t6⟩, ?_⟩, ?_⟩
      · rw [← toFinset_species _ b1, hT]; exact t2
      · rw [← toFinset_species _ b4, ← b3, hT]; exact t3
    · exact Sigma.ext hT HEq.rfl

/-- Two declarations whose legs correspond to each other, a leg leading in exactly one of them: together they give every
participant its share. -/
theorem conjugate_count (ls ls' : List (Item S)) (hn : ls.Nodup) (σ : Item S → Item S) (hσ : Function.Injective σ)
    (hperm : ls'.Perm (ls.map σ)) (hspec : ∀ x ∈ ls, (σ x).specie = x.specie)
    (hlead : ∀ x ∈ ls, leads (σ x) = !leads x) (s : S) (L R : Multiset S) :
    countIn leads ls s L R + countIn leads ls' s L R = L.count s * (splits ls L R).card := by
  have hn' : ls'.Nodup := hperm.nodup_iff.mpr (hn.map hσ)
  have hset : ls'.toFinset = ls.toFinset.image σ := by
    ext z
    rw [List.mem_toFinset, hperm.mem_iff, List.mem_map, Finset.mem_image]
    simp only [List.mem_toFinset]
  have hmap : ∀ T ⊆ ls.toFinset, (T.image σ).val.map (·.specie) = T.val.map (·.specie) := by
    intro T hT
    rw [Finset.image_val_of_injOn hσ.injOn, Multiset.map_map]
    exact Multiset.map_congr rfl fun x hx => hspec x (List.mem_toFinset.mp (hT hx))
  rw [countIn_splits leads ls hn, countIn_splits leads ls' hn']
  have : ∑ T ∈ splits ls' L R, (T.filter fun o => leads o = true ∧ o.specie = s).card =
      ∑ T ∈ splits ls L R, (T.filter fun o => ¬ leads o = true ∧ o.specie = s).card := by
    symm
    refine Finset.sum_bij (fun T _ => T.image σ) ?_ ?_ ?_ ?_
    · intro T hT
      simp only [splits, Finset.mem_filter, Finset.mem_powerset] at hT ⊢
      rw [hset, ← Finset.image_sdiff _ _ hσ, hmap T hT.1, hmap _ Finset.sdiff_subset]
      exact ⟨Finset.image_subset_image hT.1, hT.2⟩
    · intro T _ T' _ e
      exact Finset.image_injective hσ e
    · intro T hT
      simp only [splits, Finset.mem_filter, Finset.mem_powerset] at hT
      obtain ⟨U, hU, rfl⟩ := Finset.subset_image_iff.mp (hset ▸ hT.1)
      refine ⟨U, ?_, rfl⟩
      simp only [splits, Finset.mem_filter, Finset.mem_powerset]
      have h2 := hT.2
      rw [hset, ← Finset.image_sdiff _ _ hσ, hmap U hU, hmap _ Finset.sdiff_subset] at h2
      exact ⟨hU, h2⟩
    · intro T hT
      simp only [splits, Finset.mem_filter, Finset.mem_powerset] at hT
      rw [Finset.filter_image, Finset.card_image_of_injective _ hσ]
      congr 1
      refine Finset.filter_congr fun o ho => ?_
      have hm := List.mem_toFinset.mp (hT.1 ho)
      rw [hlead o hm, hspec o hm]
      simp
  rw [this, ← Finset.sum_add_distrib, mul_comm, ← smul_eq_mul, ← Finset.sum_const]
  refine Finset.sum_congr rfl fun T hT => ?_
  simp only [splits, Finset.mem_filter, Finset.mem_powerset] at hT
  rw [← hT.2.1, Multiset.count_map, ← Finset.card_union_of_disjoint]
  · change _ = (Finset.filter (fun a => s = a.specie) T).card
    congr 1
    ext o
    simp only [Finset.mem_union, Finset.mem_filter]
    constructor
    · rintro (h | h) <;> exact ⟨h.1, h.2.2.symm⟩
    · rintro ⟨h1, h2⟩
      by_cases h : leads o = true
      · exact Or.inl ⟨h1, h, h2.symm⟩
      · exact Or.inr ⟨h1, h, h2.symm⟩
  · rw [Finset.disjoint_filter]
    intro o _ h h'
    exact h'.1 h.1

/-! ## The integrals of one declaration -/

theorem sumSides_class (r : List (Item S)) (hs : ∀ x ∈ r, x.side = -1 ∨ x.side = 1) :
    sumSides r = ((speciesOn 1 r).length : ℤ) - (speciesOn (-1) r).length := by
  unfold sumSides speciesOn
  induction r with
  | nil => rfl
  | cons x r ih =>
    have ih := ih fun y hy => hs y (List.mem_cons_of_mem _ hy)
    simp only [List.length_map] at ih ⊢
    rcases hs x (List.mem_cons_self ..) with h | h
    · rw [List.map_cons, List.sum_cons, ih, List.filter_cons_of_neg (by simp [h]), List.filter_cons_of_pos (by simp [h]), h,
        List.length_cons]
      push_cast; ring
    · rw [List.map_cons, List.sum_cons, ih, List.filter_cons_of_pos (by simp [h]), List.filter_cons_of_neg (by simp [h]), h,
        List.length_cons]
      push_cast; ring

/-- Without the heavy neutrino the multiplier is one, unless three particles with two equal ones merge. -/
theorem multOf_light (i : Integral4 S) (s : S) (L R : Multiset S) (h : InClass s L R i)
    (hh : i.reaction.head?.map (·.specie) = some i.particle) (hs : ∀ x ∈ i.reaction, x.side = -1 ∨ x.side = 1)
    (hcard : L.card + R.card = 4) (hname : ∀ x ∈ L + R, A.name x ≠ hnlName) (hone : L.card = 3 → L.count s = 1) :
    multOf A i = 1 := by
  obtain ⟨h1, h2, h3⟩ := h
  have hlen : sumSides i.reaction = (R.card : ℤ) - L.card := by
    rw [sumSides_class _ hs, ← h2, ← h3]; rfl
  have hmem : ∀ x ∈ i.reaction, x.specie ∈ L + R := by
    intro x hx
    rw [Multiset.mem_add, ← h2, ← h3, Multiset.mem_coe, Multiset.mem_coe]
    unfold speciesOn
    rcases hs x hx with e | e
    · exact Or.inl (List.mem_map.mpr ⟨x, List.mem_filter.mpr ⟨hx, by simp [e]⟩, rfl⟩)
    · exact Or.inr (List.mem_map.mpr ⟨x, List.mem_filter.mpr ⟨hx, by simp [e]⟩, rfl⟩)
  have hno : hnlName ∉ i.reaction.map (fun x => A.name x.specie) := by
    intro hc
    obtain ⟨x, hx, e⟩ := List.mem_map.mp hc
    exact hname _ (hmem x hx) e
  have hr4 : i.reaction.length = 4 := by
    have : i.reaction.length = (speciesOn (-1) i.reaction).length + (speciesOn 1 i.reaction).length := by
      unfold speciesOn
      rw [List.length_map, List.length_map]
      clear h2 h3 hlen hmem hno hh
      generalize i.reaction = r at hs
      induction r with
      | nil => rfl
      | cons x r ih =>
        have ih := ih fun y hy => hs y (List.mem_cons_of_mem _ hy)
        rcases hs x (List.mem_cons_self ..) with e | e
        · rw [List.filter_cons_of_pos (by simp [e]), List.filter_cons_of_neg (by simp [e])]
          simp only [List.length_cons]; omega
        · rw [List.filter_cons_of_neg (by simp [e]), List.filter_cons_of_pos (by simp [e])]
          simp only [List.length_cons]; omega
    rw [this, ← hcard, ← h2, ← h3]; rfl
  have hcl : countSide i.reaction (-1) s = L.count s := by
    rw [← h2, Multiset.coe_count]; rfl
  unfold multOf
  match hr : i.reaction, hr4 with
  | [x0, x1, x2, x3], _ =>
    rw [hr] at hh hno hlen hcl
    have hx0 : x0.specie = s := by rw [← h1]; simpa using hh
    have key : ∀ ch : Bool, multiplier4 A.toAttr ch [x0, x1, x2, x3] = .ok 1 := by
      intro ch
      unfold multiplier4
      by_cases hp : pyCreation (sumSides [x0, x1, x2, x3]) = true
      · have h3 : L.card = 3 := by
          unfold pyCreation at hp
          rw [decide_eq_true_eq, hlen] at hp
          omega
        have e : ([x0, x1, x2, x3] : List (Item S))[3]? = some x3 := rfl
        simp only [if_neg hno, if_pos hp, e, hx0, hcl, hone h3]
        cases (!(A.majorana x3.specie && ch)) <;> rfl
      · simp only [if_neg hno, if_neg hp]
    rw [key]
    exact Nat.cast_one

theorem rateIn_light (l : List (Integral4 S)) (s : S) (L R : Multiset S)
    (h : ∀ i ∈ l, InClass s L R i → multOf A i = 1) : rateIn A l s L R = coeffIn l s L R := by
  classical
  unfold rateIn coeffIn
  refine congrArg List.sum (List.map_congr_left fun i hi => ?_)
  obtain ⟨h1, h2⟩ := List.mem_filter.mp hi
  rw [h i h1 (by simpa using h2), one_mul]

variable {A} {c}

open Classical in
/-- The weight of a process in the integrals of one declaration. -/
theorem decl_rate (hinj : Function.Injective A.name) (hmaj : ∀ s, A.majorana s = false)
    (p0 p1 p2 p3 : S) (a0 a1 a2 a3 : Bool) (Ms : List M4)
    (hM : ∀ x ∈ Ms, x.K = 0 ∧ [x.order.a, x.order.b, x.order.c, x.order.d].Perm (List.range 4))
    (hname : ∀ x ∈ ({p0, p1, p2, p3} : Multiset S), A.name x ≠ hnlName)
    (hone : ∀ L R : Multiset S, L + R = {p0, p1, p2, p3} → OpenClass A L R → L.card = 3 → ∀ s ∈ L, L.count s = 1) :
    ∃ out, (⟨[p0, p1], [p2, p3], [a0, a1], [a2, a3], .four Ms⟩ : Decl S).integrals A = .ok out ∧
      ∀ s (L R : Multiset S), s ∈ L → rateIn A out s L R =
        if OpenClass A L R then countIn leads (legs [p0, p1] [p2, p3] [a0, a1] [a2, a3]) s L R * sumK1 Ms else 0 := by
  let d : Decl S := ⟨[p0, p1], [p2, p3], [a0, a1], [a2, a3], .four Ms⟩
  obtain ⟨out, e, t1, t2, -, -, t5⟩ := two_two_terms A hinj hmaj (fun x : S => x) (fun _ _ h => h) p0 p1 p2 p3 a0 a1 a2 a3 Ms hM
  obtain ⟨out', e', al⟩ := integrals_allOf A hinj p0 p1 p2 p3 a0 a1 a2 a3 Ms hM
  obtain rfl : out' = out := Except.ok.inj (e'.symm.trans e)
  obtain ⟨rs, r1, r2, -⟩ := generated_owner A d rfl rfl Ms hM out' e
  have opn : ∀ i ∈ out', ∀ s L R, InClass s L R i → OpenClass A L R := by
    rintro i hi s L R ⟨-, h2, h3⟩
    obtain ⟨x, hx, ⟨o1, o2, o3, o4⟩, ex⟩ := (crossings_mem A hinj d rfl rfl rs r1 i.reaction).mp (r2 i hi).1
    obtain ⟨q1, q2⟩ := crossWith_species A _ (legs_side d.left d.right d.antiL d.antiR) x hx
    rw [← ex, Multiset.coe_eq_coe.mpr q1] at h2
    rw [← ex, Multiset.coe_eq_coe.mpr q2] at h3
    have sm : ∀ l : List (Item S), (((l.map (·.specie) : List S) : Multiset S).map A.mass).sum =
        (l.map fun y => A.mass y.specie).sum := by
      intro l
      rw [Multiset.map_coe, Multiset.sum_coe, List.map_map]
      rfl
    refine ⟨?_, ?_, ?_⟩
    · rw [← h3]
      intro h
      rw [Multiset.coe_eq_zero, List.map_eq_nil_iff] at h
      exact o2 h
    · intro hc
      rw [← h2, ← h3, sm, sm]
      rw [← h2, Multiset.coe_card, List.length_map, List.length_cons] at hc
      have : x.2 = [] := List.length_eq_zero_iff.mp (by omega)
      rw [this]
      simpa using o3 this
    · intro hc
      rw [← h2, ← h3, sm, sm]
      rw [← h3, Multiset.coe_card, List.length_map] at hc
      obtain ⟨y, hy⟩ := List.length_eq_one_iff.mp hc
      rw [hy]
      simpa using o4 y hy
  refine ⟨out', e, fun s L R hsL => ?_⟩
  have hrate : rateIn A out' s L R = coeffIn out' s L R := by
    refine rateIn_light A out' s L R fun i hi hc => ?_
    have htot : L + R = {p0, p1, p2, p3} := by rw [← hc.2.1, ← hc.2.2]; exact al i hi
    refine multOf_light A i s L R hc (t1 i hi) (t2 i hi) ?_ (fun x hx => hname x (htot ▸ hx)) fun h3 =>
      hone L R htot (opn i hi s L R hc) h3 s hsL
    rw [← Multiset.card_add, htot]; rfl
  rw [hrate]
  split_ifs with ho
  · have := t5 s L R (by simpa using ho)
    simpa using this
  · unfold coeffIn
    rw [List.filter_eq_nil_iff.mpr]
    · rfl
    · intro i hi hc
      exact ho (opn i hi s L R (by simpa using hc))

theorem OpenClass.symm {L R : Multiset S} (h : OpenClass A L R) (hL : L ≠ 0) : OpenClass A R L := ⟨hL, h.2.2, h.2.1⟩

open Classical in
/-- **Specification.** The weight of a process in a declaration with four legs: the number of ways to put legs with the
species `L` on one side and those with the species `R` on the other, times half the coefficient (each leg of a
declaration or of its conjugate is a particle in one of the two); zero for processes forbidden by the masses. -/
noncomputable def processWeight (A : LibAttr S) (d : Decl S) (L R : Multiset S) : ℝ :=
  if OpenClass A L R then
    (splits (legs d.left d.right d.antiL d.antiR) L R).card *
      ((match d.amp with | .four Ms => sumK1 Ms | .three _ => 0) / 2) else 0

theorem processWeight_comm (d : Decl S) (L R : Multiset S) (hL : L ≠ 0) (hR : R ≠ 0) :
    processWeight A d L R = processWeight A d R L := by
  unfold processWeight
  rw [splits_comm]
  by_cases h : OpenClass A L R
  · rw [if_pos h, if_pos (h.symm hL)]
  · rw [if_neg h, if_neg fun h' => h (h'.symm hR)]

/-- A process with a particle on both sides conserves no energy as a decay. -/
theorem no_decay (hmass : ∀ s, 0 ≤ A.mass s) (a b : S) (L R : Multiset S) (h : L + R = {a, a, b, b}) (ho : OpenClass A L R)
    (h3 : L.card = 3) : False := by
  have hR : R.card = 1 := by
    have := congrArg Multiset.card h
    rw [Multiset.card_add, h3] at this
    have e : ({a, a, b, b} : Multiset S).card = 4 := rfl
    omega
  have hlt := ho.2.2 hR
  obtain ⟨r, rfl⟩ := Multiset.card_eq_one.mp hR
  have hr : r ∈ ({a, a, b, b} : Multiset S) := by rw [← h]; simp
  have h2 : 2 ≤ ({a, a, b, b} : Multiset S).count r := by
    simp only [Multiset.insert_eq_cons, Multiset.mem_cons, Multiset.mem_singleton] at hr
    simp only [Multiset.insert_eq_cons, Multiset.count_cons, Multiset.count_singleton]
    rcases hr with rfl | rfl | rfl | rfl <;> simp <;> omega
  rw [← h, Multiset.count_add, Multiset.count_singleton_self] at h2
  have hm : r ∈ L := Multiset.count_pos.mp (by omega)
  rw [Multiset.map_singleton, Multiset.sum_singleton] at hlt
  have := Multiset.single_le_sum (s := L.map A.mass) (fun x hx => by
    obtain ⟨y, -, rfl⟩ := Multiset.mem_map.mp hx
    exact hmass y) _ (Multiset.mem_map_of_mem A.mass hm)
  linarith

theorem weakM_ok (K1 K2 : ℝ) (o : Ord4) (h : [(normOrder o).a, (normOrder o).b, (normOrder o).c, (normOrder o).d].Perm
    (List.range 4)) : (weakM c K1 K2 o).K = 0 ∧ [(weakM c K1 K2 o).order.a, (weakM c K1 K2 o).order.b,
      (weakM c K1 K2 o).order.c, (weakM c K1 K2 o).order.d].Perm (List.range 4) := ⟨rfl, h⟩

/-- A declaration that is its own conjugate. -/
theorem self_rate (hinj : Function.Injective A.name) (hmaj : ∀ s, A.majorana s = false) (hmass : ∀ s, 0 ≤ A.mass s)
    (p0 p1 p2 p3 a b : S) (a0 a1 a2 a3 : Bool) (Ms : List M4)
    (hM : ∀ x ∈ Ms, x.K = 0 ∧ [x.order.a, x.order.b, x.order.c, x.order.d].Perm (List.range 4))
    (hsp : ({p0, p1, p2, p3} : Multiset S) = {a, a, b, b}) (ha : A.name a ≠ hnlName) (hb : A.name b ≠ hnlName)
    (σ : Item S → Item S) (hσ : Function.Injective σ)
    (hperm : (legs [p0, p1] [p2, p3] [a0, a1] [a2, a3]).Perm ((legs [p0, p1] [p2, p3] [a0, a1] [a2, a3]).map σ))
    (hspec : ∀ x ∈ legs [p0, p1] [p2, p3] [a0, a1] [a2, a3], (σ x).specie = x.specie)
    (hlead : ∀ x ∈ legs [p0, p1] [p2, p3] [a0, a1] [a2, a3], leads (σ x) = !leads x) :
    ∃ out, (⟨[p0, p1], [p2, p3], [a0, a1], [a2, a3], .four Ms⟩ : Decl S).integrals A = .ok out ∧
      ∀ s (L R : Multiset S), s ∈ L → rateIn A out s L R =
        L.count s * processWeight A ⟨[p0, p1], [p2, p3], [a0, a1], [a2, a3], .four Ms⟩ L R := by
  let d : Decl S := ⟨[p0, p1], [p2, p3], [a0, a1], [a2, a3], .four Ms⟩
  obtain ⟨out, e, h⟩ := decl_rate hinj hmaj p0 p1 p2 p3 a0 a1 a2 a3 Ms hM
    (by
      intro x hx
      rw [hsp] at hx
      simp only [Multiset.insert_eq_cons, Multiset.mem_cons, Multiset.mem_singleton] at hx
      rcases hx with rfl | rfl | rfl | rfl <;> assumption)
    (fun L R hLR ho h3 => (no_decay hmass a b L R (hLR.trans hsp) ho h3).elim)
  refine ⟨out, e, fun s L R hs => ?_⟩
  rw [h s L R hs]
  unfold processWeight
  split_ifs with ho
  · have key := conjugate_count _ _ (legs_nodup_index d rfl rfl).of_map σ hσ hperm hspec hlead s L R
    have key' : ((countIn leads (legs [p0, p1] [p2, p3] [a0, a1] [a2, a3]) s L R : ℕ) : ℝ) * 2 =
        L.count s * (splits (legs [p0, p1] [p2, p3] [a0, a1] [a2, a3]) L R).card := by
      have := congrArg (Nat.cast (R := ℝ)) key
      push_cast at this
      linarith
    dsimp only
    linear_combination key' * sumK1 Ms / 2
  · rw [mul_zero]

/-! ## The declarations of the library -/

/-- Exchange of the sides. -/
def flipSide (x : Item S) : Item S := { x with side := -x.side, index := (Equiv.swap 0 2 * Equiv.swap 1 3 : Equiv.Perm ℕ) x.index }

/-- Exchange of particles and antiparticles. -/
def flipAnti (x : Item S) : Item S :=
  { x with antiparticle := !x.antiparticle, index := (Equiv.swap 0 1 * Equiv.swap 2 3 : Equiv.Perm ℕ) x.index }

theorem flipSide_inj : Function.Injective (flipSide (S := S)) := by
  rintro ⟨a, b, c, d, e⟩ ⟨a', b', c', d', e'⟩ h
  simp only [flipSide, Item.mk.injEq, neg_inj, EmbeddingLike.apply_eq_iff_eq] at h ⊢
  exact h

theorem flipAnti_inj : Function.Injective (flipAnti (S := S)) := by
  rintro ⟨a, b, c, d, e⟩ ⟨a', b', c', d', e'⟩ h
  simp only [flipAnti, Item.mk.injEq, Bool.not_inj_iff, EmbeddingLike.apply_eq_iff_eq] at h ⊢
  exact h

theorem flip_index : ((Equiv.swap 0 2 * Equiv.swap 1 3 : Equiv.Perm ℕ) 0 = 2 ∧ (Equiv.swap 0 2 * Equiv.swap 1 3 : Equiv.Perm ℕ) 1 = 3 ∧
    (Equiv.swap 0 2 * Equiv.swap 1 3 : Equiv.Perm ℕ) 2 = 0 ∧ (Equiv.swap 0 2 * Equiv.swap 1 3 : Equiv.Perm ℕ) 3 = 1) ∧
    (Equiv.swap 0 1 * Equiv.swap 2 3 : Equiv.Perm ℕ) 0 = 1 ∧ (Equiv.swap 0 1 * Equiv.swap 2 3 : Equiv.Perm ℕ) 1 = 0 ∧
    (Equiv.swap 0 1 * Equiv.swap 2 3 : Equiv.Perm ℕ) 2 = 3 ∧ (Equiv.swap 0 1 * Equiv.swap 2 3 : Equiv.Perm ℕ) 3 = 2 := by
  decide

theorem legs_two (p0 p1 p2 p3 : S) (a0 a1 a2 a3 : Bool) : legs [p0, p1] [p2, p3] [a0, a1] [a2, a3] =
    [⟨-1, p0, a0, 0, false⟩, ⟨-1, p1, a1, 1, false⟩, ⟨1, p2, a2, 2, false⟩, ⟨1, p3, a3, 3, false⟩] := rfl

theorem flipSide_legs (a b : S) :
    ((legs [a, b] [a, b] [false, false] [false, false]).map flipSide) =
      [⟨1, a, false, 2, false⟩, ⟨1, b, false, 3, false⟩, ⟨-1, a, false, 0, false⟩, ⟨-1, b, false, 1, false⟩] := by
  obtain ⟨⟨i0, i1, i2, i3⟩, -⟩ := flip_index
  rw [legs_two]
  simp only [List.map_cons, List.map_nil, flipSide, i0, i1, i2, i3, neg_neg]

theorem flipAnti_legs (p0 p1 p2 p3 : S) :
    ((legs [p0, p1] [p2, p3] [false, true] [false, true]).map flipAnti) =
      [⟨-1, p0, true, 1, false⟩, ⟨-1, p1, false, 0, false⟩, ⟨1, p2, true, 3, false⟩, ⟨1, p3, false, 2, false⟩] := by
  obtain ⟨-, i0, i1, i2, i3⟩ := flip_index
  rw [legs_two]
  simp only [List.map_cons, List.map_nil, flipAnti, i0, i1, i2, i3, Bool.not_false, Bool.not_true]

theorem leads_flipSide (x : Item S) (h : x.side = -1 ∨ x.side = 1) : leads (flipSide x) = !leads x := by
  obtain ⟨a, b, c, d, e⟩ := x
  rcases h with h | h <;> dsimp only at h <;> subst h <;> cases c <;> rfl

theorem leads_flipAnti (x : Item S) (h : x.side = -1 ∨ x.side = 1) : leads (flipAnti x) = !leads x := by
  obtain ⟨a, b, c, d, e⟩ := x
  rcases h with h | h <;> dsimp only at h <;> subst h <;> cases c <;> rfl

/-- `ν_a ν_b ↔ ν_a ν_b` and its crossings. -/
theorem scattering_rate (hinj : Function.Injective A.name) (hmaj : ∀ s, A.majorana s = false) (hmass : ∀ s, 0 ≤ A.mass s)
    (a b : S) (ha : A.name a ≠ hnlName) (hb : A.name b ≠ hnlName) :
    ∃ out, (neutrinoScattering c a b).integrals A = .ok out ∧ ∀ s (L R : Multiset S), s ∈ L →
      rateIn A out s L R = L.count s * processWeight A (neutrinoScattering c a b) L R := by
  refine self_rate hinj hmaj hmass a b a b a b false false false false _ ?_ ?_ ha hb flipSide flipSide_inj ?_
    (fun _ _ => rfl) fun x hx => leads_flipSide x (legs_side _ _ _ _ x hx)
  · intro x hx
    rw [List.mem_singleton.mp hx]
    exact weakM_ok _ _ _ (by decide)
  · simp only [Multiset.insert_eq_cons]; rw [Multiset.cons_swap b a]
  · rw [flipSide_legs, legs_two]
    exact (List.perm_append_comm (l₁ := [_, _]) (l₂ := [_, _]))

/-- `ν ν ↔ l l` and its crossings. -/
theorem annihilation_rate (hinj : Function.Injective A.name) (hmaj : ∀ s, A.majorana s = false) (hmass : ∀ s, 0 ≤ A.mass s)
    (a l : S) (gL : ℝ) (ha : A.name a ≠ hnlName) (hl : A.name l ≠ hnlName) :
    ∃ out, (neutrinosToLeptons c a l gL).integrals A = .ok out ∧ ∀ s (L R : Multiset S), s ∈ L →
      rateIn A out s L R = L.count s * processWeight A (neutrinosToLeptons c a l gL) L R := by
  refine self_rate hinj hmaj hmass a a l l a l false true false true _ ?_ rfl ha hl flipAnti flipAnti_inj ?_
    (fun _ _ => rfl) fun x hx => leads_flipAnti x (legs_side _ _ _ _ x hx)
  · intro x hx
    simp only [List.mem_cons, List.not_mem_nil, or_false] at hx
    rcases hx with rfl | rfl | rfl <;> exact weakM_ok _ _ _ (by decide)
  · rw [flipAnti_legs, legs_two]
    exact (List.Perm.swap _ _ _).trans (((List.Perm.swap _ _ _).cons _).cons _)

open Classical in
/-- `l₁ l₂ ↔ ν₁ ν₂` and its crossings: a declaration and its conjugate. -/
theorem charged_rate (hinj : Function.Injective A.name) (hmaj : ∀ s, A.majorana s = false)
    (a a' l l' : S) (hd : [l, l', a, a'].Nodup) (hname : ∀ x ∈ [l, l', a, a'], A.name x ≠ hnlName) :
    (∃ out, (leptonsCC c a a' l l').integrals A = .ok out) ∧ ∀ s (L R : Multiset S), s ∈ L →
      rateOf A ((leptonsCC c a a' l l').integrals A) s L R + rateOf A ((leptonsCC c a' a l' l).integrals A) s L R =
        L.count s * (processWeight A (leptonsCC c a a' l l') L R + processWeight A (leptonsCC c a' a l' l) L R) := by
  have one : ∀ a a' l l' : S, [l, l', a, a'].Nodup → (∀ x ∈ [l, l', a, a'], A.name x ≠ hnlName) →
      ∃ out, (leptonsCC c a a' l l').integrals A = .ok out ∧ ∀ s (L R : Multiset S), s ∈ L → rateIn A out s L R =
        if OpenClass A L R then countIn leads (legs [l, l'] [a, a'] [false, true] [false, true]) s L R *
          sumK1 [weakM c 4 0 ⟨0, 3, 1, 2⟩] else 0 := by
    intro a a' l l' hd hname
    refine decl_rate hinj hmaj l l' a a' false true false true _ ?_ ?_ ?_
    · intro x hx
      rw [List.mem_singleton.mp hx]
      exact weakM_ok _ _ _ (by decide)
    · intro x hx
      exact hname x (by simpa using hx)
    · intro L R hLR _ _ s hs
      refine Multiset.count_eq_one_of_mem ?_ hs
      have : (L + R).Nodup := by rw [hLR]; exact hd
      exact (Multiset.nodup_add.mp this).1
  obtain ⟨out, e, h⟩ := one a a' l l' hd hname
  have hp : [l', l, a', a].Perm [l, l', a, a'] := (List.Perm.swap _ _ _).trans (((List.Perm.swap _ _ _).cons _).cons _)
  obtain ⟨out', e', h'⟩ := one a' a l' l (hp.nodup_iff.mpr hd) fun x hx => hname x (hp.mem_iff.mp hx)
  refine ⟨⟨out, e⟩, fun s L R hs => ?_⟩
  rw [e, e']
  change rateIn A out s L R + rateIn A out' s L R = _
  rw [h s L R hs, h' s L R hs]
  have p : (legs [l', l] [a', a] [false, true] [false, true]).Perm
      ((legs [l, l'] [a, a'] [false, true] [false, true]).map flipAnti) := by
    rw [flipAnti_legs, legs_two]
    exact (List.Perm.swap _ _ _).trans (((List.Perm.swap _ _ _).cons _).cons _)
  have p' : (legs [l, l'] [a, a'] [false, true] [false, true]).Perm
      ((legs [l', l] [a', a] [false, true] [false, true]).map flipAnti) := by
    rw [flipAnti_legs, legs_two]
    exact (List.Perm.swap _ _ _).trans (((List.Perm.swap _ _ _).cons _).cons _)
  have k := conjugate_count _ _ (legs_nodup_index (leptonsCC c a a' l l') rfl rfl).of_map flipAnti flipAnti_inj p
    (fun _ _ => rfl) (fun x hx => leads_flipAnti x (legs_side _ _ _ _ x hx)) s L R
  have k' := conjugate_count _ _ (legs_nodup_index (leptonsCC c a' a l' l) rfl rfl).of_map flipAnti flipAnti_inj p'
    (fun _ _ => rfl) (fun x hx => leads_flipAnti x (legs_side _ _ _ _ x hx)) s L R
  have k := congrArg (Nat.cast (R := ℝ)) k
  have k' := congrArg (Nat.cast (R := ℝ)) k'
  push_cast at k k'
  unfold processWeight leptonsCC
  by_cases ho : OpenClass A L R
  · simp only [if_pos ho]
    unfold leptonsCC at k k'
    linear_combination (k + k') * sumK1 [weakM c 4 0 ⟨0, 3, 1, 2⟩] / 2
  · simp only [if_neg ho]; ring

/-! ## All declarations together -/

theorem sum_over_flatMap {α β : Type*} (l : List α) (g : α → List β) (F : β → ℝ) :
    ((l.flatMap g).map F).sum = (l.map fun x => ((g x).map F).sum).sum := by
  induction l with
  | nil => rfl
  | cons x l ih => rw [List.flatMap_cons, List.map_append, List.sum_append, ih, List.map_cons, List.sum_cons]

theorem sum_over_filter {α : Type*} (l : List α) (p : α → Prop) [DecidablePred p] (F : α → ℝ) :
    ((l.filter fun x => p x).map F).sum = (l.map fun x => if p x then F x else 0).sum := by
  induction l with
  | nil => rfl
  | cons x l ih =>
    rw [List.map_cons, List.sum_cons, ← ih]
    by_cases h : p x
    · rw [List.filter_cons_of_pos (by simpa using h), if_pos h, List.map_cons, List.sum_cons]
    · rw [List.filter_cons_of_neg (by simpa using h), if_neg h, zero_add]

theorem sum_pairs_exchange {α : Type*} (l : List α) (G : α → α → ℝ) :
    (l.map fun x => (l.map fun y => G x y).sum).sum = (l.map fun x => (l.map fun y => G y x).sum).sum :=
  Multiset.sum_map_sum_map (l : Multiset α) (l : Multiset α) (f := G)

theorem sum_pairs {α β : Type*} (l : List α) (k : List β) (F : α × β → ℝ) :
    ((l.product k).map F).sum = (l.map fun x => (k.map fun y => F (x, y)).sum).sum := by
  unfold List.product
  rw [sum_over_flatMap]
  refine congrArg List.sum (List.map_congr_left fun x _ => ?_)
  rw [List.map_map]; rfl

/-- When a charged current interaction of two families is declared. -/
def CCPair (A : LibAttr S) (leptons neutrinos : List S) (x y : S × S) : Prop :=
  (1 < leptons.length ∧ 1 < neutrinos.length) ∧ y.1 ≠ x.1 ∧ y.2 ≠ x.2 ∧ A.flavour x.2 = A.flavour x.1 ∧
    A.flavour y.2 = A.flavour y.1

open Classical in
theorem lepton_sum (leptons neutrinos : List S) (F : Decl S → ℝ) :
    ((leptonInteractions A c leptons neutrinos).map F).sum =
      ((leptons.product neutrinos).map fun x => ((leptons.product neutrinos).map fun y =>
        if CCPair A leptons neutrinos x y then F (leptonsCC c x.2 y.2 x.1 y.1) else 0).sum).sum := by
  unfold leptonInteractions
  rw [sum_over_flatMap, sum_pairs]
  refine congrArg List.sum (List.map_congr_left fun l _ => ?_)
  rw [sum_over_flatMap]
  refine congrArg List.sum (List.map_congr_left fun n _ => ?_)
  rw [sum_pairs]
  by_cases hlen : 1 < leptons.length ∧ 1 < neutrinos.length
  · rw [if_pos hlen, sum_over_flatMap, sum_over_filter]
    refine congrArg List.sum (List.map_congr_left fun l' _ => ?_)
    by_cases hl : l' ≠ l
    · rw [if_pos hl, sum_over_flatMap, sum_over_filter]
      refine congrArg List.sum (List.map_congr_left fun n' _ => ?_)
      by_cases hn : n' ≠ n
      · rw [if_pos hn]
        by_cases hf : A.flavour n = A.flavour l ∧ A.flavour n' = A.flavour l'
        · rw [if_pos hf, if_pos ⟨hlen, hl, hn, hf⟩]
          simp
        · rw [if_neg hf, if_neg fun h => hf ⟨h.2.2.2.1, h.2.2.2.2⟩]
          rfl
      · rw [if_neg hn, if_neg fun h => hn h.2.2.1]
    · rw [if_neg hl, sum_none]
      intro n' _
      rw [if_neg fun h => hl h.2.1]
  · rw [if_neg hlen, List.map_nil, List.sum_nil, sum_none]
    intro l' _
    rw [sum_none]
    intro n' _
    rw [if_neg fun h => hlen h.1]

theorem combRepl_mem {α : Type*} (l : List α) (x : α × α) (h : x ∈ combRepl l) : x.1 ∈ l ∧ x.2 ∈ l := by
  induction l with
  | nil => simp [combRepl] at h
  | cons y l ih =>
    unfold combRepl at h
    rcases List.mem_append.mp h with h | h
    · obtain ⟨z, hz, rfl⟩ := List.mem_map.mp h
      exact ⟨List.mem_cons_self .., hz⟩
    · exact ⟨List.mem_cons_of_mem _ (ih h).1, List.mem_cons_of_mem _ (ih h).2⟩

/-- Species of a Standard Model run: distinct names, none that of the heavy neutrino, no Majorana particle, charged leptons
different from neutrinos. -/
structure Light (A : LibAttr S) (neutrinos leptons : List S) : Prop where
  inj : Function.Injective A.name
  dirac : ∀ s, A.majorana s = false
  mass : ∀ s, 0 ≤ A.mass s
  apart : ∀ a ∈ neutrinos, a ∉ leptons
  name : ∀ s ∈ neutrinos ++ leptons, A.name s ≠ hnlName

/-- The weight of a process in a list of declarations. -/
noncomputable def totalWeight (A : LibAttr S) (ds : List (Decl S)) (L R : Multiset S) : ℝ :=
  (ds.map fun d => processWeight A d L R).sum

/-- **C106.** In all integrals generated from `neutrino_interactions` every process is balanced: each participant feels it
with the same coefficient, times the number of particles of the species on its side. -/
theorem C106_neutrinos (leptons neutrinos : List S) (ok : Light A neutrinos leptons) :
    ∃ out, (neutrinoInteractions A c leptons neutrinos).mapM (Decl.integrals A) = .ok out ∧ ∀ s L R, s ∈ L →
      rateIn A out.flatten s L R = L.count s * totalWeight A (neutrinoInteractions A c leptons neutrinos) L R := by
  have hn : ∀ s ∈ neutrinos, A.name s ≠ hnlName := fun s h => ok.name s (List.mem_append_left _ h)
  have hl : ∀ s ∈ leptons, A.name s ≠ hnlName := fun s h => ok.name s (List.mem_append_right _ h)
  have each : ∀ d ∈ neutrinoInteractions A c leptons neutrinos, ∃ out, d.integrals A = .ok out ∧
      ∀ s (L R : Multiset S), s ∈ L → rateIn A out s L R = L.count s * processWeight A d L R := by
    intro d hd
    unfold neutrinoInteractions at hd
    rcases List.mem_append.mp hd with hd | hd
    · obtain ⟨x, hx, rfl⟩ := List.mem_map.mp hd
      obtain ⟨x1, x2⟩ := combRepl_mem _ _ hx
      exact scattering_rate ok.inj ok.dirac ok.mass _ _ (hn _ x1) (hn _ x2)
    · obtain ⟨l, hll, hd⟩ := List.mem_flatMap.mp hd
      obtain ⟨a, haa, rfl⟩ := List.mem_map.mp hd
      exact annihilation_rate ok.inj ok.dirac ok.mass _ _ _ (hn _ haa) (hl _ hll)
  obtain ⟨out, e, h⟩ := rateIn_mapM (A := A) (Decl.integrals A) (neutrinoInteractions A c leptons neutrinos)
    fun d hd => by obtain ⟨o, h, -⟩ := each d hd; exact ⟨o, h⟩
  refine ⟨out, e, fun s L R hs => ?_⟩
  rw [h, totalWeight, ← List.sum_map_mul_left]
  refine congrArg List.sum (List.map_congr_left fun d hd => ?_)
  obtain ⟨o, e, h⟩ := each d hd
  rw [e]
  exact h s L R hs

/-- **C106 (charged currents).** The same for `lepton_interactions`. -/
theorem C106_leptons (leptons neutrinos : List S) (ok : Light A neutrinos leptons) :
    ∃ out, (leptonInteractions A c leptons neutrinos).mapM (Decl.integrals A) = .ok out ∧ ∀ s L R, s ∈ L →
      rateIn A out.flatten s L R = L.count s * totalWeight A (leptonInteractions A c leptons neutrinos) L R := by
  classical
  have each : ∀ x ∈ leptons.product neutrinos, ∀ y ∈ leptons.product neutrinos, CCPair A leptons neutrinos x y →
      (∃ out, (leptonsCC c x.2 y.2 x.1 y.1).integrals A = .ok out) ∧ ∀ s (L R : Multiset S), s ∈ L →
      rateOf A ((leptonsCC c x.2 y.2 x.1 y.1).integrals A) s L R + rateOf A ((leptonsCC c y.2 x.2 y.1 x.1).integrals A) s L R =
        L.count s * (processWeight A (leptonsCC c x.2 y.2 x.1 y.1) L R +
          processWeight A (leptonsCC c y.2 x.2 y.1 x.1) L R) := by
    rintro ⟨l, a⟩ hx ⟨l', a'⟩ hy ⟨-, h1, h2, -, -⟩
    obtain ⟨hl, ha⟩ := List.pair_mem_product.mp hx
    obtain ⟨hl', ha'⟩ := List.pair_mem_product.mp hy
    have n1 : ∀ u ∈ leptons, ∀ v ∈ neutrinos, u ≠ v := fun u hu v hv e => ok.apart v hv (e ▸ hu)
    refine charged_rate ok.inj ok.dirac a a' l l' ?_ ?_
    · simp only [List.nodup_cons, List.mem_cons, List.not_mem_nil, or_false, not_or, not_false_eq_true, List.nodup_nil,
        and_true]
      exact ⟨⟨Ne.symm h1, n1 l hl a ha, n1 l hl a' ha'⟩, ⟨n1 l' hl' a ha, n1 l' hl' a' ha'⟩, Ne.symm h2⟩
    · intro x hx
      refine ok.name x ?_
      simp only [List.mem_cons, List.not_mem_nil, or_false] at hx
      rcases hx with rfl | rfl | rfl | rfl
      · exact List.mem_append_right _ hl
      · exact List.mem_append_right _ hl'
      · exact List.mem_append_left _ ha
      · exact List.mem_append_left _ ha'
  have mem : ∀ d ∈ leptonInteractions A c leptons neutrinos, ∃ x ∈ leptons.product neutrinos,
      ∃ y ∈ leptons.product neutrinos, CCPair A leptons neutrinos x y ∧ d = leptonsCC c x.2 y.2 x.1 y.1 := by
    intro d hd
    unfold leptonInteractions at hd
    obtain ⟨l, hl, hd⟩ := List.mem_flatMap.mp hd
    obtain ⟨a, ha, hd⟩ := List.mem_flatMap.mp hd
    by_cases hlen : 1 < leptons.length ∧ 1 < neutrinos.length
    · rw [if_pos hlen] at hd
      obtain ⟨l', hl', hd⟩ := List.mem_flatMap.mp hd
      obtain ⟨a', ha', hd⟩ := List.mem_flatMap.mp hd
      obtain ⟨hl', h1⟩ := List.mem_filter.mp hl'
      obtain ⟨ha', h2⟩ := List.mem_filter.mp ha'
      by_cases hf : A.flavour a = A.flavour l ∧ A.flavour a' = A.flavour l'
      · rw [if_pos hf] at hd
        exact ⟨(l, a), List.pair_mem_product.mpr ⟨hl, ha⟩, (l', a'), List.pair_mem_product.mpr ⟨hl', ha'⟩,
          ⟨hlen, by simpa using h1, by simpa using h2, hf⟩, List.mem_singleton.mp hd⟩
      · rw [if_neg hf] at hd
        simp at hd
    · rw [if_neg hlen] at hd
      simp at hd
  obtain ⟨out, e, h⟩ := rateIn_mapM (A := A) (Decl.integrals A) (leptonInteractions A c leptons neutrinos)
    fun d hd => by obtain ⟨x, hx, y, hy, hp, rfl⟩ := mem d hd; exact (each x hx y hy hp).1
  refine ⟨out, e, fun s L R hs => ?_⟩
  rw [h, totalWeight, lepton_sum, lepton_sum]
  have half : ∀ F : Decl S → ℝ,
      ((leptons.product neutrinos).map fun x => ((leptons.product neutrinos).map fun y =>
        if CCPair A leptons neutrinos x y then F (leptonsCC c x.2 y.2 x.1 y.1) else 0).sum).sum * 2 =
      ((leptons.product neutrinos).map fun x => ((leptons.product neutrinos).map fun y =>
        if CCPair A leptons neutrinos x y then
          F (leptonsCC c x.2 y.2 x.1 y.1) + F (leptonsCC c y.2 x.2 y.1 x.1) else 0).sum).sum := by
    intro F
    rw [mul_two]
    nth_rw 2 [sum_pairs_exchange]
    rw [← List.sum_map_add]
    refine congrArg List.sum (List.map_congr_left fun x _ => ?_)
    rw [← List.sum_map_add]
    refine congrArg List.sum (List.map_congr_left fun y _ => ?_)
    have hsym : CCPair A leptons neutrinos x y ↔ CCPair A leptons neutrinos y x :=
      ⟨fun ⟨a, b, c, d, e⟩ => ⟨a, b.symm, c.symm, e, d⟩, fun ⟨a, b, c, d, e⟩ => ⟨a, b.symm, c.symm, e, d⟩⟩
    by_cases hp : CCPair A leptons neutrinos x y
    · rw [if_pos hp, if_pos (hsym.mp hp), if_pos hp]
    · rw [if_neg hp, if_neg fun h => hp (hsym.mpr h), if_neg hp, add_zero]
  have h1 := half fun d => rateOf A (d.integrals A) s L R
  have h2 := half fun d => processWeight A d L R
  refine mul_right_cancel₀ (two_ne_zero (α := ℝ)) ?_
  rw [h1, mul_assoc, h2, ← List.sum_map_mul_left]
  refine congrArg List.sum (List.map_congr_left fun x hx => ?_)
  rw [← List.sum_map_mul_left]
  refine congrArg List.sum (List.map_congr_left fun y hy => ?_)
  by_cases hp : CCPair A leptons neutrinos x y
  · rw [if_pos hp, if_pos hp]
    exact (each x hx y hy hp).2 s L R hs
  · rw [if_neg hp, if_neg hp, mul_zero]

theorem totalWeight_comm (ds : List (Decl S)) (L R : Multiset S) (hL : L ≠ 0) (hR : R ≠ 0) :
    totalWeight A ds L R = totalWeight A ds R L := by
  unfold totalWeight
  exact congrArg List.sum (List.map_congr_left fun d _ => processWeight_comm d L R hL hR)

theorem processWeight_zero (d : Decl S) (L : Multiset S) : processWeight A d L 0 = 0 := by
  unfold processWeight
  rw [if_neg fun h => h.1 rfl]

/-- **C106 (all together).** With all the integrals of `neutrino_interactions` and `lepton_interactions`, every process is
balanced between its participants. -/
theorem C106_balanced (leptons neutrinos : List S) (ok : Light A neutrinos leptons) :
    ∃ out, (neutrinoInteractions A c leptons neutrinos ++ leptonInteractions A c leptons neutrinos).mapM
        (Decl.integrals A) = .ok out ∧ ∀ L R : Multiset S, BalancedIn A out.flatten L R := by
  obtain ⟨o1, e1, h1⟩ := C106_neutrinos (c := c) leptons neutrinos ok
  obtain ⟨o2, e2, h2⟩ := C106_leptons (c := c) leptons neutrinos ok
  refine ⟨o1 ++ o2, ?_, fun L R => ?_⟩
  · rw [List.mapM_append, e1, e2]; rfl
  · set w := fun L R => totalWeight A (neutrinoInteractions A c leptons neutrinos) L R +
      totalWeight A (leptonInteractions A c leptons neutrinos) L R with hw
    have key : ∀ L R : Multiset S, ∀ s ∈ L, rateIn A (o1 ++ o2).flatten s L R = L.count s * w L R := by
      intro L R s hs
      rw [List.flatten_append, rateIn_append, h1 s L R hs, h2 s L R hs]
      ring
    by_cases hR : R = 0
    · refine ⟨w L R, key L R, ?_⟩
      intro s hs
      rw [hR] at hs
      simp at hs
    by_cases hL : L = 0
    · refine ⟨w R L, ?_, key R L⟩
      intro s hs
      rw [hL] at hs
      simp at hs
    refine ⟨w L R, key L R, ?_⟩
    have : w L R = w R L := by
      simp only [hw]
      rw [totalWeight_comm _ L R hL hR, totalWeight_comm _ L R hL hR]
    rw [this]
    exact key R L

/-! ## A concrete case -/

theorem termsAttr_light : Light termsAttr [1, 2] [4, 3] where
  inj := termsAttr_inj
  dirac := fun _ => rfl
  mass := fun s => by fin_cases s <;> norm_num [termsAttr]
  apart := by decide
  name := by
    have : ∀ s ∈ ([1, 2, 4, 3] : List (Fin 5)),
        (![hnlName, "Electron neutrino", "Muon neutrino", "Muon", "Electron"] : Fin 5 → String) s ≠ hnlName := by
      unfold hnlName
      decide
    exact this

/-- Electron and muon neutrinos, electrons and muons: muon decay has the weight `128 G_F²` in the equations of the muon,
the electron and both neutrinos. -/
example : ∃ out, (leptonInteractions termsAttr c [4, 3] [1, 2]).mapM (Decl.integrals termsAttr) = .ok out ∧
    rateIn termsAttr out.flatten 3 {3} {4, 1, 2} = 128 * c.GF ^ 2 ∧
    rateIn termsAttr out.flatten 1 {4, 1, 2} {3} = 128 * c.GF ^ 2 := by
  obtain ⟨out, e, h⟩ := C106_leptons (c := c) [4, 3] [1, 2] termsAttr_light
  have decl : leptonInteractions termsAttr c [4, 3] [1, 2] = [leptonsCC c 1 2 4 3, leptonsCC c 2 1 3 4] := by
    have n1 : ("electron" : String) ≠ "muon" := by decide
    have n2 : ("muon" : String) ≠ "electron" := by decide
    simp [leptonInteractions, termsAttr, n1, n2]
  have op : OpenClass termsAttr {3} {4, 1, 2} := by
    refine ⟨by decide, fun _ => ?_, fun h => absurd h (by decide)⟩
    have m1 : termsAttr.mass 1 = 0 := rfl
    have m2 : termsAttr.mass 2 = 0 := rfl
    have m3 : termsAttr.mass 3 = 105 := rfl
    have m4 : termsAttr.mass 4 = 1 / 2 := rfl
    simp only [Multiset.insert_eq_cons, Multiset.map_cons, Multiset.map_singleton, Multiset.sum_cons,
      Multiset.sum_singleton, m1, m2, m3, m4]
    norm_num
  have s1 : (splits (legs [4, 3] [1, 2] [false, true] [false, true] : List (Item (Fin 5))) {3} {4, 1, 2}).card = 1 := by decide
  have s2 : (splits (legs [3, 4] [2, 1] [false, true] [false, true] : List (Item (Fin 5))) {3} {4, 1, 2}).card = 1 := by decide
  have w : totalWeight termsAttr (leptonInteractions termsAttr c [4, 3] [1, 2]) {3} {4, 1, 2} = 128 * c.GF ^ 2 := by
    rw [decl]
    unfold totalWeight processWeight leptonsCC
    simp only [List.map_cons, List.map_nil, List.sum_cons, List.sum_nil, if_pos op, s1, s2]
    simp only [sumK1, weakM, List.map_cons, List.map_nil, List.sum_cons, List.sum_nil]
    norm_num
    ring
  refine ⟨out, e, ?_, ?_⟩
  · rw [h 3 {3} {4, 1, 2} (by simp), w]
    simp
  · rw [h 1 {4, 1, 2} {3} (by simp), ← totalWeight_comm _ _ _ (by decide) (by decide), w]
    have : Multiset.count (1 : Fin 5) {4, 1, 2} = 1 := by decide
    rw [this]
    simp

end
end PyBBN
