import Verif.Lemmas.CrossKern
/-!
# The decays among the integrals of a declaration with four different particles
-/
namespace PyBBN

set_option linter.unusedSectionVars false

section
variable {S : Type*} [DecidableEq S]

theorem dedupAppend_new (acc : List (Integral4 S)) (n : Integral4 S) (h : ∀ o ∈ acc, similar n o = false) :
    dedupAppend acc n = acc ++ [n] := by
  induction acc with
  | nil => rfl
  | cons o os ih =>
    unfold dedupAppend
    rw [h o (List.mem_cons_self ..), if_neg Bool.false_ne_true, ih fun x hx => h x (List.mem_cons_of_mem _ hx)]
    rfl

/-- Integrals none of which resembles another are not merged. -/
theorem dedup_distinct (l : List (Integral4 S)) (h : l.Pairwise fun i j => similar j i = false) : dedup l = l := by
  have gen : ∀ (l acc : List (Integral4 S)), (acc ++ l).Pairwise (fun i j => similar j i = false) →
      l.foldl dedupAppend acc = acc ++ l := by
    intro l
    induction l with
    | nil => intro acc _; simp
    | cons n l ih =>
      intro acc h
      rw [List.foldl_cons, dedupAppend_new]
      · rw [ih (acc ++ [n]) (by simpa using h)]; simp
      · intro o ho
        exact (List.pairwise_append.mp h).2.2 o ho n (List.mem_cons_self ..)
  exact (gen l [] h).trans (List.nil_append l)

theorem lift_perm {α β : Type*} (g : α → β) (T : List α) (l : List β) (h : l.Perm (T.map g)) :
    ∃ T' : List α, T'.Perm T ∧ l = T'.map g := by
  have hF : List.Forall₂ (fun (b : β) (a : α) => b = g a) (T.map g) T := by
    induction T with
    | nil => exact .nil
    | cons x T _ => exact List.forall₂_map_left_iff.mpr (List.forall₂_same.mpr fun _ _ => rfl)
  obtain ⟨w, h1, h2⟩ := List.perm_comp_forall₂ h hF
  refine ⟨w, h2, ?_⟩
  have : List.Forall₂ (fun b c : β => b = c) l (w.map g) := List.forall₂_map_right_iff.mpr h1
  exact List.forall₂_eq_eq_eq ▸ this

variable (A : LibAttr S)

/-- The items of a crossed reaction are the legs, moved to their sides. -/
theorem crossWith_ofFn (p : Fin 4 → S) (a : Fin 4 → Bool) (x : Item S × List (Item S))
    (hx : x ∈ choices (List.ofFn (leg4 p a))) :
    ∃ π : Equiv.Perm (Fin 4), x.1 = leg4 p a (π 0) ∧
      (∀ h, otherLegs (List.ofFn (leg4 p a)) x = [leg4 p a h] → π 3 = h) ∧
      crossWith A (List.ofFn (leg4 p a)) x =
        List.ofFn fun t => toSide A.toAttr (if (t : ℕ) < 1 + x.2.length then -1 else 1) (leg4 p a (π t)) := by
  have hnd := ofFn_leg4_nodup p a
  have hp := choice_perm _ hnd _ hx
  obtain ⟨T1, hT1, e1⟩ := lift_perm (toSide A.toAttr (-1)) x.2 _ (sortItems_perm A.toAttr (x.2.map (toSide A.toAttr (-1))))
  obtain ⟨T2, hT2, e2⟩ := lift_perm (toSide A.toAttr 1) (otherLegs (List.ofFn (leg4 p a)) x) _
    (sortItems_perm A.toAttr ((otherLegs (List.ofFn (leg4 p a)) x).map (toSide A.toAttr 1)))
  have hW : (x.1 :: T1 ++ T2).Perm ((List.finRange 4).map (leg4 p a)) := by
    rw [← List.ofFn_eq_map]
    exact (List.Perm.append (hT1.cons x.1) hT2).trans hp
  obtain ⟨ks, hks, eks⟩ := lift_perm (leg4 p a) (List.finRange 4) _ hW
  have hlen : ks.length = 4 := by rw [hks.length_eq, List.length_finRange]
  have hnk : ks.Nodup := hks.nodup_iff.mpr (List.nodup_finRange 4)
  let κ : Fin 4 → Fin 4 := fun t => ks[(t : ℕ)]'(by rw [hlen]; exact t.2)
  have hκ : Function.Injective κ := by
    intro t u h
    exact Fin.ext ((List.Nodup.getElem_inj_iff hnk).mp h)
  have hlenW : (x.1 :: T1 ++ T2).length = 4 := by rw [eks, List.length_map, hlen]
  have hget : ∀ t : Fin 4, (x.1 :: T1 ++ T2)[(t : ℕ)]'(by rw [hlenW]; exact t.2) = leg4 p a (κ t) := by
    intro t
    simp only [eks, List.getElem_map, κ]
  have hl1 : T1.length = x.2.length := hT1.length_eq
  refine ⟨Equiv.ofBijective κ (Finite.injective_iff_bijective.mp hκ), ?_, ?_, ?_⟩
  · exact hget 0
  · intro h hh
    rw [hh] at hT2
    have hT2' := List.perm_singleton.mp hT2
    have hg := hget 3
    have h3 : T1.length = 2 := by
      rw [hT2'] at hlenW
      simpa using hlenW
    apply leg4_inj p a
    change leg4 p a (κ 3) = _
    rw [← hg]
    subst hT2'
    rw [List.getElem_append_right (by simp [h3])]
    simp [h3]
  · unfold crossWith
    rw [e1, e2]
    apply List.ext_getElem
    · have := hlenW
      simp only [List.length_append, List.length_cons, List.length_map, List.length_ofFn] at this ⊢
      exact this
    · intro t h1 h2
      rw [List.length_ofFn] at h2
      rw [List.getElem_ofFn]
      have hg := hget ⟨t, h2⟩
      dsimp only at hg
      change _ = toSide A.toAttr _ (leg4 p a (κ ⟨t, h2⟩))
      rw [← hg]
      have e : toSide A.toAttr (-1) x.1 :: T1.map (toSide A.toAttr (-1)) = (x.1 :: T1).map (toSide A.toAttr (-1)) := rfl
      simp only [e]
      by_cases ht : t < 1 + x.2.length
      · rw [if_pos ht]
        rw [List.getElem_append_left (by simp only [List.length_map, List.length_cons]; omega), List.getElem_map,
          List.getElem_append_left (by simp only [List.length_cons]; omega)]
      · rw [if_neg ht]
        rw [List.getElem_append_right (by simp only [List.length_map, List.length_cons]; omega), List.getElem_map,
          List.getElem_append_right (by simp only [List.length_cons]; omega)]
        simp only [List.length_map]


/-- Two reactions of a declaration with different particles that have the same particles on the same sides are the
same. -/
theorem reaction_of_sides (p : Fin 4 → S) (hp : Function.Injective p) (a : Fin 4 → Bool) (π π' : Equiv.Perm (Fin 4))
    (s s' : Fin 4 → ℤ) (h : (List.ofFn fun t => toSide A.toAttr (s t) (leg4 p a (π t))).map (·.specie) =
      (List.ofFn fun t => toSide A.toAttr (s' t) (leg4 p a (π' t))).map (·.specie)) (hs : s = s') :
    (List.ofFn fun t => toSide A.toAttr (s t) (leg4 p a (π t))) =
      List.ofFn fun t => toSide A.toAttr (s' t) (leg4 p a (π' t)) := by
  subst hs
  have hsp : ∀ k j, (toSide A.toAttr k (leg4 p a j)).specie = p j := by
    intro k j
    unfold toSide crossParticle
    split_ifs <;> rfl
  rw [List.map_ofFn, List.map_ofFn] at h
  have h' := List.ofFn_injective h
  congr 1
  funext t
  have := congrFun h' t
  simp only [Function.comp, hsp] at this
  rw [hp this]

theorem leg4_specie_of (k : ℤ) (p : Fin 4 → S) (a : Fin 4 → Bool) (j : Fin 4) : (toSide A.toAttr k (leg4 p a j)).specie = p j := by
  unfold toSide crossParticle
  split_ifs <;> rfl

theorem leg4_index_of (k : ℤ) (p : Fin 4 → S) (a : Fin 4 → Bool) (j : Fin 4) :
    (toSide A.toAttr k (leg4 p a j)).index = (j : ℕ) := by
  unfold toSide crossParticle
  split_ifs <;> rfl

/-- The sides of a crossed reaction with `n` particles on the left. -/
def crossSide (n : ℕ) : Fin 4 → ℤ := fun t => if (t : ℕ) < n then -1 else 1

/-- Nothing is merged among the integrals of a declaration with four different particles: there is one integral for each
reaction. -/
theorem generated_distinct (hinj : Function.Injective A.name) (p : Fin 4 → S) (hp : Function.Injective p) (a : Fin 4 → Bool)
    (Ms : List M4) (hM : ∀ x ∈ Ms, Ordered x) :
    ∃ rs out, reactionsMap A.toAttr [p 0, p 1] [p 2, p 3] [a 0, a 1] [a 2, a 3] = .ok rs ∧ rs.Nodup ∧
      crossGenerating A.toAttr [p 0, p 1] [p 2, p 3] [a 0, a 1] [a 2, a 3] Ms = .ok out ∧
      List.Forall₂ (fun r i => Integral4.reaction i = r ∧ (r.head?.map (·.specie)) = some i.particle ∧
        List.Forall₂ (fun x y => relabel r x = .ok y) Ms i.Ms) rs out := by
  obtain ⟨rs, ints, out, g1, g2, -, g3, g4, -⟩ := generated_ints A.toAttr [p 0, p 1] [p 2, p 3] [a 0, a 1] [a 2, a 3]
    rfl rfl Ms hM
  obtain ⟨rs', r1, rnd, -⟩ := reactionsMap_mem A.toAttr [p 0, p 1] [p 2, p 3] [a 0, a 1] [a 2, a 3] rfl rfl
  obtain rfl : rs' = rs := Except.ok.inj (r1.symm.trans g1)
  have hWF : ∀ r ∈ rs', WellFormed A.toAttr r := by
    obtain ⟨rs'', c1, -, c3⟩ := C42_exactly_the_crossings A.toAttr hinj [p 0, p 1] [p 2, p 3] [a 0, a 1] [a 2, a 3] rfl rfl
    obtain rfl : rs'' = rs' := Except.ok.inj (c1.symm.trans g1)
    exact fun r hr => ((c3 r).mp hr).2
  have hform : ∀ r ∈ rs', ∃ (π : Equiv.Perm (Fin 4)) (n : ℕ), n ≤ 4 ∧ (speciesOn (-1) r).length = n ∧
      r = List.ofFn fun t => toSide A.toAttr (crossSide n t) (leg4 p a (π t)) := by
    intro r hr
    obtain ⟨x, hx, -, rfl⟩ := (crossings_mem A hinj (decl4 p a Ms) rfl rfl rs' g1 r).mp hr
    have hx' : x ∈ choices (List.ofFn (leg4 p a)) := hx
    obtain ⟨π, -, -, e⟩ := crossWith_ofFn A p a x hx'
    have hs : ∀ y ∈ List.ofFn (leg4 p a), y.side = -1 ∨ y.side = 1 := by
      intro y hy
      obtain ⟨j, rfl⟩ := List.mem_ofFn.mp hy
      exact leg4_side p a j
    have hc := (crossWith_species A _ hs x hx').1.length_eq
    have hl := (choice_perm _ (ofFn_leg4_nodup p a) _ hx').length_eq
    refine ⟨π, 1 + x.2.length, ?_, ?_, e⟩
    · rw [List.length_ofFn] at hl
      simp only [List.length_cons, List.length_append] at hl
      omega
    · refine hc.trans ?_
      simp only [List.length_map, List.length_cons]
      omega
  have hints : ∀ i ∈ ints, i.reaction ∈ rs' ∧ (i.reaction.map (·.specie)).head? = some i.particle := by
    clear g1 g2 g4 r1 rnd hWF hform
    induction g3 with
    | nil => simp
    | @cons r i rs ints h _ ih =>
      intro j hj
      rcases List.mem_cons.mp hj with rfl | hj
      · exact ⟨by rw [h.1]; exact List.mem_cons_self .., by rw [h.1, List.head?_map]; exact h.2.1⟩
      · exact ⟨List.mem_cons_of_mem _ (ih j hj).1, (ih j hj).2⟩
  have hreac : ints.map (·.reaction) = rs' := by
    clear g1 g2 g4 r1 rnd hWF hform hints
    induction g3 with
    | nil => rfl
    | cons h _ ih => rw [List.map_cons, h.1, ih]
  have hpw : ints.Pairwise fun i j => similar j i = false := by
    have hne : ints.Pairwise fun i j => i.reaction ≠ j.reaction := by
      rw [← hreac] at rnd
      exact List.pairwise_map.mp rnd
    have hne' : ints.Pairwise fun i j => i ∈ ints ∧ j ∈ ints ∧ i.reaction ≠ j.reaction :=
      List.Pairwise.imp_of_mem (fun {i j} hi hj h => ⟨hi, hj, h⟩) hne
    refine hne'.imp fun {i j} h => ?_
    obtain ⟨hi, hj, hij⟩ := h
    by_contra hsim
    rw [Bool.not_eq_false] at hsim
    unfold similar at hsim
    rw [Bool.and_eq_true, Bool.and_eq_true, decide_eq_true_eq] at hsim
    have hk : SameKey j i := ⟨hsim.1.1, (speciesOn_perm _ _ _).mp hsim.1.2, (speciesOn_perm _ _ _).mp hsim.2⟩
    have hsp := C44_same_positions A.toAttr hinj j i (hWF _ (hints j hj).1) (hWF _ (hints i hi).1) (hints j hj).2 (hints i hi).2 hk
    obtain ⟨π, n, -, hn, e⟩ := hform _ (hints i hi).1
    obtain ⟨π', n', -, hn', e'⟩ := hform _ (hints j hj).1
    have hnn : n' = n := by
      rw [← hn, ← hn']
      exact (List.isPerm_iff.mp hsim.1.2).length_eq
    subst hnn
    apply hij
    rw [e, e'] at hsp ⊢
    exact reaction_of_sides A p hp a π π' _ _ hsp.symm rfl
  exact ⟨rs', out, g1, rnd, g2, by rw [g4, dedup_distinct ints hpw]; exact g3⟩

/-- The decaying particle is heavier than the other three together. -/
def Heavy4 (p : Fin 4 → S) (h : Fin 4) : Prop := ∑ j, A.mass (p j) < 2 * A.mass (p h)

theorem Heavy4.unique {A : LibAttr S} (hmass : ∀ s, 0 ≤ A.mass s) {p : Fin 4 → S} {h h' : Fin 4} (H : Heavy4 A p h) (H' : Heavy4 A p h') :
    h' = h := by
  unfold Heavy4 at H H'
  by_contra hne
  have h1 : A.mass (p h) + A.mass (p h') ≤ ∑ j, A.mass (p j) := by
    rw [← Finset.sum_pair (f := fun j => A.mass (p j)) (Ne.symm hne)]
    exact Finset.sum_le_sum_of_subset_of_nonneg (Finset.subset_univ _) fun j _ _ => hmass _
  linarith

/-- The legs next to the leading one in the decay of leg `h`, seen from leg `k`. -/
def decayChoice (p : Fin 4 → S) (a : Fin 4 → Bool) (h k : Fin 4) : Item S × List (Item S) :=
  (leg4 p a k, if k = h then [] else ((List.ofFn (leg4 p a)).erase (leg4 p a k)).erase (leg4 p a h))

theorem sum_legs (p : Fin 4 → S) (a : Fin 4 → Bool) (x : Item S × List (Item S)) (hx : x ∈ choices (List.ofFn (leg4 p a))) :
    A.mass x.1.specie + (x.2.map fun y => A.mass y.specie).sum +
      ((otherLegs (List.ofFn (leg4 p a)) x).map fun y => A.mass y.specie).sum = ∑ j, A.mass (p j) := by
  have h := ((choice_perm _ (ofFn_leg4_nodup p a) _ hx).map fun y => A.mass y.specie).sum_eq
  rw [List.map_cons, List.sum_cons, List.map_append, List.sum_append, List.map_ofFn, List.sum_ofFn] at h
  rw [add_assoc, h]
  rfl

theorem decayChoice_mem (p : Fin 4 → S) (a : Fin 4 → Bool) (h k : Fin 4) :
    decayChoice p a h k ∈ choices (List.ofFn (leg4 p a)) := by
  rw [mem_choices]
  refine ⟨List.mem_ofFn.mpr ⟨k, rfl⟩, ?_⟩
  unfold decayChoice
  dsimp only
  split_ifs
  · exact List.nil_sublist _
  · exact List.erase_sublist

theorem decayChoice_other (p : Fin 4 → S) (a : Fin 4 → Bool) (h k : Fin 4) (hk : k ≠ h) :
    otherLegs (List.ofFn (leg4 p a)) (decayChoice p a h k) = [leg4 p a h] := by
  have hnd := ofFn_leg4_nodup p a
  have hne := hnd.erase (leg4 p a k)
  have hmem : leg4 p a h ∈ (List.ofFn (leg4 p a)).erase (leg4 p a k) :=
    (List.mem_erase_of_ne fun e => hk (leg4_inj p a e).symm).mpr (List.mem_ofFn.mpr ⟨h, rfl⟩)
  unfold otherLegs decayChoice
  dsimp only
  rw [if_neg hk]
  have e : ((List.ofFn (leg4 p a)).erase (leg4 p a k)).filter
      (fun y => y ∉ ((List.ofFn (leg4 p a)).erase (leg4 p a k)).erase (leg4 p a h)) =
      ((List.ofFn (leg4 p a)).erase (leg4 p a k)).filter (· = leg4 p a h) := by
    apply List.filter_congr
    intro y hy
    simp only [hne.mem_erase_iff, hy, and_true, ne_eq, not_not]
  rw [e, List.filter_eq, List.count_eq_one_of_mem hne hmem]
  rfl

/-- The open crossings of a declaration that are not scatterings. -/
theorem decay_choices (p : Fin 4 → S) (a : Fin 4 → Bool)
    (x : Item S × List (Item S)) (hx : x ∈ choices (List.ofFn (leg4 p a))) (hshape : x.2.length ≠ 1) :
    Opens A (List.ofFn (leg4 p a)) x ↔ CanLead A x.1 ∧ ∃ h k, Heavy4 A p h ∧ x = decayChoice p a h k := by
  have hnd := ofFn_leg4_nodup p a
  have hsum := sum_legs A p a x hx
  have hlen := (choice_perm _ hnd _ hx).length_eq
  rw [List.length_ofFn] at hlen
  simp only [List.length_cons, List.length_append] at hlen
  obtain ⟨hx1, hx2⟩ := (mem_choices _ x).mp hx
  obtain ⟨k, hk⟩ := List.mem_ofFn.mp hx1
  have hE : (List.ofFn (leg4 p a)).erase x.1 = (List.ofFn (leg4 p a)).erase (leg4 p a k) := by rw [hk]
  have hnE := hnd.erase x.1
  constructor
  · rintro ⟨h1, h2, h3, h4⟩
    refine ⟨h1, ?_⟩
    by_cases h0 : x.2 = []
    · refine ⟨k, k, ?_, ?_⟩
      · have := h3 h0
        unfold Heavy4
        rw [← hsum, h0]
        have e : A.mass x.1.specie = A.mass (p k) := by rw [← hk]; rfl
        rw [e] at this ⊢
        simp only [List.map_nil, List.sum_nil]
        linarith
      · apply Prod.ext
        · exact hk.symm
        · unfold decayChoice
          rw [if_pos rfl, h0]
    · have l2 : x.2.length ≠ 0 := fun h => h0 (List.length_eq_zero_iff.mp h)
      have lo : (otherLegs (List.ofFn (leg4 p a)) x).length ≠ 0 := fun h => h2 (List.length_eq_zero_iff.mp h)
      obtain ⟨y, hy⟩ := List.length_eq_one_iff.mp (show (otherLegs (List.ofFn (leg4 p a)) x).length = 1 by omega)
      have hym : y ∈ otherLegs (List.ofFn (leg4 p a)) x := by rw [hy]; exact List.mem_cons_self ..
      unfold otherLegs at hym
      obtain ⟨hyE, hyn⟩ := List.mem_filter.mp hym
      obtain ⟨h, hh⟩ := List.mem_ofFn.mp (List.mem_of_mem_erase hyE)
      have hkh : k ≠ h := by
        rintro rfl
        rw [← hh, hk] at hyE
        exact (hnd.not_mem_erase) hyE
      refine ⟨h, k, ?_, ?_⟩
      · have := h4 y hy
        unfold Heavy4
        rw [← hsum, hy]
        have e : A.mass y.specie = A.mass (p h) := by rw [← hh]; rfl
        rw [e, List.map_cons, List.sum_cons] at this
        simp only [List.map_cons, List.map_nil, List.sum_cons, List.sum_nil, e]
        linarith
      · apply Prod.ext
        · exact hk.symm
        · unfold decayChoice
          rw [if_neg hkh, hk, hh]
          refine List.Sublist.eq_of_length ?_ ?_
          · rw [hnE.erase_eq_filter]
            have : x.2.filter (fun z => z != y) = x.2 := by
              apply List.filter_eq_self.mpr
              intro z hz
              simp only [bne_iff_ne, ne_eq]
              rintro rfl
              simp [hz] at hyn
            rw [← this]
            exact hx2.filter _
          · rw [List.length_erase_of_mem hyE, List.length_erase_of_mem hx1, List.length_ofFn]
            rw [hy] at hlen
            simp only [List.length_cons, List.length_nil] at hlen
            omega
  · rintro ⟨h1, h, k', H, rfl⟩
    unfold Heavy4 at H
    rw [← hsum] at H
    by_cases hkh : k' = h
    · subst hkh
      have e2 : (decayChoice p a k' k').2 = [] := if_pos rfl
      have e1 : A.mass (decayChoice p a k' k').1.specie = A.mass (p k') := rfl
      rw [e2, e1] at H
      simp only [List.map_nil, List.sum_nil, add_zero] at H
      rw [e2] at hlen
      refine ⟨h1, ?_, fun _ => by rw [e1]; linarith, ?_⟩
      · intro h0; rw [h0] at hlen; simp at hlen
      · intro y hy; rw [hy] at hlen; simp at hlen
    · have eo := decayChoice_other p a h k' hkh
      rw [eo] at H hlen
      have e1 : A.mass (leg4 p a h).specie = A.mass (p h) := rfl
      simp only [List.map_cons, List.map_nil, List.sum_cons, List.sum_nil, e1] at H
      refine ⟨h1, by rw [eo]; exact List.cons_ne_nil _ _, ?_, ?_⟩
      · intro h0; rw [h0] at hlen; simp at hlen
      · intro y hy
        rw [eo] at hy
        obtain rfl := (List.cons.inj hy).1
        rw [e1, List.map_cons, List.sum_cons]
        linarith

/-- Sides of the reaction for a choice. -/
theorem cross_twoTwo (p : Fin 4 → S) (a : Fin 4 → Bool) (π : Equiv.Perm (Fin 4)) (n : ℕ) (hn : n ≤ 4) :
    (List.ofFn fun t => toSide A.toAttr (crossSide n t) (leg4 p a (π t))).map (·.side) = [-1, -1, 1, 1] ↔ n = 2 := by
  have hs : ∀ t, (toSide A.toAttr (crossSide n t) (leg4 p a (π t))).side = crossSide n t := fun t =>
    toSide_side A.toAttr _ _ (leg4_side p a _) (by unfold crossSide; split_ifs <;> simp)
  have e : (List.ofFn fun t => toSide A.toAttr (crossSide n t) (leg4 p a (π t))).map (·.side) = List.ofFn (crossSide n) := by
    rw [List.map_ofFn]
    congr 1
    funext t
    exact hs t
  rw [e]
  interval_cases n <;> decide

/-- A list related elementwise by a functional relation is an image. -/
theorem forall₂_graph {α β : Type*} (R : α → β → Prop) (b : β) (hu : ∀ r i j, R r i → R r j → i = j) (rs : List α)
    (out : List β) (h : List.Forall₂ R rs out) : ∃ G : α → β, out = rs.map G ∧ ∀ r ∈ rs, R r (G r) := by
  classical
  let G : α → β := fun r => if h : ∃ i, R r i then h.choose else b
  have hG : ∀ r i, R r i → G r = i := by
    intro r i h
    have hex : ∃ i, R r i := ⟨i, h⟩
    change (if h : ∃ i, R r i then h.choose else _) = i
    rw [dif_pos hex]
    exact hu r _ _ hex.choose_spec h
  refine ⟨G, ?_⟩
  induction h with
  | nil => simp
  | cons h _ ih =>
    rw [List.map_cons, hG _ _ h, ← ih.1]
    refine ⟨rfl, fun r hr => ?_⟩
    rcases List.mem_cons.mp hr with rfl | hr
    · rw [hG _ _ h]; exact h
    · exact ih.2 r hr

theorem filter_twoTwo_map (G : List (Item S) → Integral4 S) (rs : List (List (Item S)))
    (h : ∀ r ∈ rs, (G r).reaction = r) :
    ((rs.map G).filter fun i => ¬ TwoTwo i) = (rs.filter fun r => r.map (·.side) ≠ [-1, -1, 1, 1]).map G := by
  rw [List.filter_map]
  refine congrArg (List.map G) (List.filter_congr fun r hr => ?_)
  have e : (G r).reaction = r := h r hr
  have : TwoTwo (G r) ↔ r.map (·.side) = [-1, -1, 1, 1] := by unfold TwoTwo; rw [e]
  simp only [Function.comp]
  exact decide_eq_decide.mpr (not_congr this)

/-- The integrals of a declaration with four different particles that are not scatterings: none if no particle is
heavier than the others together, otherwise one for each leg that can lead. -/
theorem decay_integrals (hinj : Function.Injective A.name) (hmaj : ∀ s, A.majorana s = false) (hmass : ∀ s, 0 ≤ A.mass s)
    (p : Fin 4 → S) (hp : Function.Injective p) (a : Fin 4 → Bool) (Ms : List M4) (hM : ∀ x ∈ Ms, Ordered x) :
    ∃ out, crossGenerating A.toAttr [p 0, p 1] [p 2, p 3] [a 0, a 1] [a 2, a 3] Ms = .ok out ∧
      ((∀ h, ¬ Heavy4 A p h) → (out.filter fun i => ¬ TwoTwo i) = []) ∧
      ∀ h, Heavy4 A p h → ∃ (I : Fin 4 → Integral4 S) (π : Fin 4 → Equiv.Perm (Fin 4)),
        (out.filter fun i => ¬ TwoTwo i).Perm (((List.finRange 4).filter fun k => leads (leg4 p a k)).map I) ∧
        ∀ k, leads (leg4 p a k) = true → π k 0 = k ∧ (k ≠ h → π k 3 = h) ∧ (I k).particle = p k ∧
          (I k).reaction = List.ofFn (fun t => toSide A.toAttr (crossSide (if k = h then 1 else 3) t) (leg4 p a (π k t))) ∧
          List.Forall₂ (fun x y => relabel (I k).reaction x = .ok y) Ms (I k).Ms := by
  classical
  obtain ⟨rs, out, r1, rnd, g2, g3⟩ := generated_distinct A hinj p hp a Ms hM
  have hperm := crossings_mem A hinj (decl4 p a Ms) rfl rfl rs r1
  have hmem : ∀ r, r ∈ rs ↔ ∃ x ∈ choices (List.ofFn (leg4 p a)), Opens A (List.ofFn (leg4 p a)) x ∧
      crossWith A (List.ofFn (leg4 p a)) x = r := hperm
  -- an integral as a function of its reaction
  let R : List (Item S) → Integral4 S → Prop := fun r i => Integral4.reaction i = r ∧
    (r.head?.map (·.specie)) = some i.particle ∧ List.Forall₂ (fun x y => relabel r x = .ok y) Ms i.Ms
  have hRu : ∀ r i j, R r i → R r j → i = j := by
    rintro r ⟨pi, ri, Mi⟩ ⟨pj, rj, Mj⟩ ⟨a1, a2, a3⟩ ⟨b1, b2, b3⟩
    dsimp only at a1 a2 a3 b1 b2 b3
    obtain rfl : pi = pj := Option.some.inj (a2.symm.trans b2)
    obtain rfl : Mi = Mj :=
      List.right_unique_forall₂' (fun _ _ _ h h' => Except.ok.inj (h.symm.trans h')) a3 b3
    rw [a1, b1]
  obtain ⟨G, hout⟩ := forall₂_graph R ⟨p 0, [], []⟩ hRu rs out g3
  have hfilter := filter_twoTwo_map G rs fun r hr => (hout.2 r hr).1
  rw [← hout.1] at hfilter
  -- the reactions that are not scatterings
  have hcross : ∀ x ∈ choices (List.ofFn (leg4 p a)),
      ((crossWith A (List.ofFn (leg4 p a)) x).map (·.side) = [-1, -1, 1, 1] ↔ x.2.length = 1) := by
    intro x hx
    obtain ⟨π, -, -, e⟩ := crossWith_ofFn A p a x hx
    have hl := (choice_perm _ (ofFn_leg4_nodup p a) _ hx).length_eq
    rw [List.length_ofFn] at hl
    simp only [List.length_cons, List.length_append] at hl
    rw [e]
    refine (cross_twoTwo A p a π (1 + x.2.length) (by omega)).trans ?_
    omega
  have hdec : ∀ r, r ∈ (rs.filter fun r => r.map (·.side) ≠ [-1, -1, 1, 1]) ↔ ∃ h k, Heavy4 A p h ∧
      leads (leg4 p a k) = true ∧ crossWith A (List.ofFn (leg4 p a)) (decayChoice p a h k) = r := by
    intro r
    rw [List.mem_filter, hmem]
    constructor
    · rintro ⟨⟨x, hx, ho, rfl⟩, hsd⟩
      have hlen : x.2.length ≠ 1 := fun h1 => by
        have := (hcross x hx).mpr h1
        exact of_decide_eq_true hsd this
      obtain ⟨hl, h, k, H, rfl⟩ := (decay_choices A p a x hx hlen).mp ho
      exact ⟨h, k, H, (leads_iff A _ (hmaj _)).mpr hl, rfl⟩
    · rintro ⟨h, k, H, hl, rfl⟩
      have hx := decayChoice_mem p a h k
      have hlen : (decayChoice p a h k).2.length ≠ 1 := by
        by_cases hkh : k = h
        · rw [show (decayChoice p a h k).2 = [] from if_pos hkh]; simp
        · have hl := (choice_perm _ (ofFn_leg4_nodup p a) _ hx).length_eq
          rw [List.length_ofFn] at hl
          rw [decayChoice_other p a h k hkh] at hl
          simp only [List.length_cons, List.length_append, List.length_nil] at hl
          omega
      refine ⟨⟨_, hx, (decay_choices A p a _ hx hlen).mpr ⟨(leads_iff A _ (hmaj _)).mp hl, h, k, H, rfl⟩, rfl⟩, ?_⟩
      exact decide_eq_true fun h => hlen ((hcross _ hx).mp h)
  refine ⟨out, g2, ?_, ?_⟩
  · intro hno
    rw [hfilter]
    have : (rs.filter fun r => r.map (·.side) ≠ [-1, -1, 1, 1]) = [] := by
      apply List.eq_nil_iff_forall_not_mem.mpr
      intro r hr
      obtain ⟨h, -, H, -⟩ := (hdec r).mp hr
      exact hno h H
    rw [this]; rfl
  · intro h H
    have hform : ∀ k, ∃ π : Equiv.Perm (Fin 4), π 0 = k ∧ (k ≠ h → π 3 = h) ∧
        crossWith A (List.ofFn (leg4 p a)) (decayChoice p a h k) =
          List.ofFn fun t => toSide A.toAttr (crossSide (if k = h then 1 else 3) t) (leg4 p a (π t)) := by
      intro k
      have hx := decayChoice_mem p a h k
      obtain ⟨π, h0, h3, e⟩ := crossWith_ofFn A p a _ hx
      have hl := (choice_perm _ (ofFn_leg4_nodup p a) _ hx).length_eq
      rw [List.length_ofFn] at hl
      refine ⟨π, (leg4_inj p a h0).symm, fun hk => h3 h (decayChoice_other p a h k hk), ?_⟩
      have hlen : 1 + (decayChoice p a h k).2.length = if k = h then 1 else 3 := by
        by_cases hkh : k = h
        · rw [show (decayChoice p a h k).2 = [] from if_pos hkh, if_pos hkh]; rfl
        · rw [decayChoice_other p a h k hkh] at hl
          rw [if_neg hkh]
          simp only [List.length_cons, List.length_append, List.length_nil] at hl
          omega
      rw [e, hlen]
      rfl
    choose π hπ0 hπ3 hπ using hform
    refine ⟨fun k => G (crossWith A (List.ofFn (leg4 p a)) (decayChoice p a h k)), π, ?_, ?_⟩
    · rw [hfilter, show ((List.finRange 4).filter fun k => leads (leg4 p a k)).map
          (fun k => G (crossWith A (List.ofFn (leg4 p a)) (decayChoice p a h k))) =
        (((List.finRange 4).filter fun k => leads (leg4 p a k)).map
          fun k => crossWith A (List.ofFn (leg4 p a)) (decayChoice p a h k)).map G by rw [List.map_map]; rfl]
      refine List.Perm.map G ?_
      rw [List.perm_ext_iff_of_nodup (rnd.filter _)]
      · intro r
        rw [hdec, List.mem_map]
        constructor
        · rintro ⟨h', k, H', hl, rfl⟩
          obtain rfl := H.unique hmass H'
          exact ⟨k, by simpa using hl, rfl⟩
        · rintro ⟨k, hk, rfl⟩
          exact ⟨h, k, H, by simpa using hk, rfl⟩
      · refine ((List.nodup_finRange 4).filter _).map ?_
        intro k k' e
        dsimp only at e
        rw [hπ, hπ] at e
        have := congrArg (·.specie) (congrFun (List.ofFn_injective e) 0)
        rw [leg4_specie_of, leg4_specie_of, hπ0, hπ0] at this
        exact hp this
    · intro k hk
      have hr := (hdec _).mpr ⟨h, k, H, hk, rfl⟩
      obtain ⟨q1, q2, q3⟩ := hout.2 _ (List.mem_filter.mp hr).1
      refine ⟨hπ0 k, hπ3 k, ?_, q1.trans (hπ k), ?_⟩
      · have e : ((crossWith A (List.ofFn (leg4 p a)) (decayChoice p a h k)).head?.map (·.specie)) = some (p k) := by
          rw [hπ k]
          simp only [List.ofFn_succ, List.head?_cons, Option.map_some, Option.some.injEq]
          rw [leg4_specie_of, hπ0]
        exact Option.some.inj (q2.symm.trans e)
      · rw [q1]; exact q3

end
end PyBBN
