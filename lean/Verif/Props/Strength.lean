import Verif.Props.Owners
import Verif.Props.Dedup
import Verif.Model.SterileFilters
/-!
# Total strength of the decay terms generated from a declaration

Specification side of C101: the sum of the coefficients `K1` of all collision integrals of a species in which it stands
alone on the left.
-/
namespace PyBBN

set_option linter.unusedSectionVars false

section
variable {S : Type*} [DecidableEq S]

/-- Sum of the coefficients of the scalar products. -/
noncomputable def sumK1 (l : List M4) : ℝ := (l.map (·.K1)).sum

/-- The integral of `s` describes its decay (and the inverse). -/
def IsDecayOf (s : S) (i : Integral4 S) : Prop :=
  i.particle = s ∧ (i.reaction.filter (·.side = -1)).length = 1

open Classical in
/-- Total coefficient of the decays of `s` in a list of integrals. -/
noncomputable def strength (s : S) (l : List (Integral4 S)) : ℝ := ((l.filter fun i => IsDecayOf s i).map fun i => sumK1 i.Ms).sum

theorem strength_nil (s : S) : strength s [] = 0 := rfl

theorem strength_append (s : S) (l l' : List (Integral4 S)) : strength s (l ++ l') = strength s l + strength s l' := by
  simp [strength]

open Classical in
theorem strength_cons (s : S) (i : Integral4 S) (l : List (Integral4 S)) :
    strength s (i :: l) = (if IsDecayOf s i then sumK1 i.Ms else 0) + strength s l := by
  unfold strength
  by_cases h : IsDecayOf s i
  · rw [List.filter_cons_of_pos (by simpa using h), if_pos h, List.map_cons, List.sum_cons]
  · rw [List.filter_cons_of_neg (by simpa using h), if_neg h, zero_add]

theorem absorb_K1 (os : List M4) (n : M4) (os' : List M4) (h : absorb os n = some os') : sumK1 os' = sumK1 os + n.K1 := by
  induction os generalizing os' with
  | nil => simp [absorb] at h
  | cons o os ih =>
    unfold absorb at h
    split_ifs at h with h1 h2
    · obtain rfl := Option.some.inj h
      simp [sumK1, M4.iadd]; ring
    · obtain rfl := Option.some.inj h
      simp [sumK1, M4.iadd]; ring
    · obtain ⟨t, ht, rfl⟩ := Option.map_eq_some_iff.mp h
      have := ih t ht
      simp only [sumK1, List.map_cons, List.sum_cons] at this ⊢
      rw [this]; ring

theorem mergeMs_K1 (old new : List M4) : sumK1 (mergeMs old new) = sumK1 old + sumK1 new := by
  have gen : ∀ (new : List M4) (st : List M4 × List M4),
      sumK1 (new.foldl mergeStep st).1 + sumK1 (new.foldl mergeStep st).2 = sumK1 st.1 + sumK1 st.2 + sumK1 new := by
    intro new
    induction new with
    | nil => intro st; simp [sumK1]
    | cons n new ih =>
      intro st
      rw [List.foldl_cons, ih]
      have e : sumK1 (n :: new) = n.K1 + sumK1 new := rfl
      rw [e]
      unfold mergeStep
      cases h : absorb st.1 n with
      | none => simp [sumK1]; ring
      | some o => dsimp only; rw [absorb_K1 _ _ _ h]; ring
  unfold mergeMs
  have := gen new (old, [])
  simp only [sumK1, List.map_append, List.sum_append, List.map_nil, List.sum_nil, add_zero] at this ⊢
  exact this

theorem isDecayOf_sameKey (s : S) (i j : Integral4 S) (h : SameKey i j) : IsDecayOf s i ↔ IsDecayOf s j := by
  unfold IsDecayOf
  have hl : (i.reaction.filter (·.side = -1)).length = (j.reaction.filter (·.side = -1)).length := by
    have := ((speciesOn_perm (-1) i.reaction j.reaction).mpr h.2.1)
    rw [List.isPerm_iff] at this
    have := this.length_eq
    simpa [speciesOn] using this
  rw [h.1, hl]

/-- Merging does not change the strength. -/
theorem strength_dedup (s : S) (l : List (Integral4 S)) : strength s (dedup l) = strength s l := by
  classical
  have one : ∀ (l : List (Integral4 S)) (n : Integral4 S), strength s (dedupAppend l n) = strength s (n :: l) := by
    intro l n
    induction l with
    | nil => rfl
    | cons o l ih =>
      unfold dedupAppend
      split_ifs with h
      · have hk := (similar_iff n o).mp h
        have e1 : IsDecayOf s { o with Ms := mergeMs o.Ms n.Ms } ↔ IsDecayOf s o := Iff.rfl
        have e2 := isDecayOf_sameKey s n o hk
        rw [strength_cons, strength_cons, strength_cons]
        by_cases hd : IsDecayOf s o
        · rw [if_pos (e1.mpr hd), if_pos (e2.mpr hd), if_pos hd, mergeMs_K1]; ring
        · rw [if_neg (fun x => hd (e1.mp x)), if_neg (fun x => hd (e2.mp x)), if_neg hd]; ring
      · rw [strength_cons, ih, strength_cons, strength_cons, strength_cons]; ring
  have gen : ∀ (l acc : List (Integral4 S)), strength s (l.foldl dedupAppend acc) = strength s l + strength s acc := by
    intro l
    induction l with
    | nil => intro acc; simp [strength_nil]
    | cons n l ih => intro acc; rw [List.foldl_cons, ih, one, strength_cons, strength_cons]; ring
  have := gen l []
  rw [strength_nil, add_zero] at this
  exact this

theorem relabel_K1 (r : List (Item S)) (x y : M4) (h : relabel r x = .ok y) : y.K1 = x.K1 := by
  unfold relabel at h
  cases h1 : posOf r x.order.a with
  | error e => simp [h1, bind, Except.bind] at h
  | ok a =>
    cases h2 : posOf r x.order.b with
    | error e => simp [h1, h2, bind, Except.bind] at h
    | ok b =>
      cases h3 : posOf r x.order.c with
      | error e => simp [h1, h2, h3, bind, Except.bind] at h
      | ok c =>
        cases h4 : posOf r x.order.d with
        | error e => simp [h1, h2, h3, h4, bind, Except.bind] at h
        | ok d =>
          simp only [h1, h2, h3, h4, bind, Except.bind] at h
          unfold M4.applyOrder at h
          split at h
          · obtain rfl := Except.ok.inj h; rfl
          · cases h

theorem forall2_sumK1 (r : List (Item S)) {l l' : List M4} (h : List.Forall₂ (fun x y => relabel r x = .ok y) l l') :
    sumK1 l' = sumK1 l := by
  induction h with
  | nil => rfl
  | cons h _ ih =>
    simp only [sumK1, List.map_cons, List.sum_cons] at ih ⊢
    rw [ih, relabel_K1 r _ _ h]

/-! ## Counting the decays -/

variable (A : LibAttr S)

/-- The decay of the leg `o`: all other legs on the right. -/
def decayOf (ls : List (Item S)) (o : Item S) : List (Item S) :=
  toSide A.toAttr (-1) o :: sortItems A.toAttr ((ls.erase o).map (toSide A.toAttr 1))

theorem toSide_specie (k : ℤ) (x : Item S) : (toSide A.toAttr k x).specie = x.specie := by
  unfold toSide crossParticle
  split_ifs <;> rfl

theorem toSide_index (k : ℤ) (x : Item S) : (toSide A.toAttr k x).index = x.index := by
  unfold toSide crossParticle
  split_ifs <;> rfl

theorem totalMass_side (k : ℤ) (l : List (Item S)) :
    totalMass A.toAttr (l.map (toSide A.toAttr k)) = (l.map fun x => A.mass x.specie).sum := by
  unfold totalMass
  rw [List.map_map]
  congr 1
  exact List.map_congr_left fun x _ => by simp [toSide_specie]

theorem sortItems_congr (hinj : Function.Injective A.name) (l l' : List (Item S)) (k : ℤ) (hl : ∀ x ∈ l, x.side = k)
    (h : l.Perm l') : sortItems A.toAttr l = sortItems A.toAttr l' := by
  have p := ((sortItems_perm A.toAttr l).trans h).trans (sortItems_perm A.toAttr l').symm
  refine p.eq_of_pairwise (le := fun x y => sortKey A.toAttr x ≤ sortKey A.toAttr y) ?_
    (sortItems_sorted A.toAttr hinj l k hl) (sortItems_sorted A.toAttr hinj l' k fun x hx => hl x (h.mem_iff.mpr hx))
  intro x y hx hy h1 h2
  have hx' := hl x ((sortItems_perm A.toAttr l).mem_iff.mp hx)
  have hy' := hl y (h.mem_iff.mpr ((sortItems_perm A.toAttr l').mem_iff.mp hy))
  have e := le_antisymm h1 h2
  unfold sortKey at e
  have e' := toLex_inj.mp e
  simp only [Prod.mk.injEq, toLex_inj] at e'
  obtain ⟨e1, e2, e3, e4⟩ := e'
  obtain ⟨s, sp, a, i, c⟩ := x
  obtain ⟨s', sp', a', i', c'⟩ := y
  simp only at e1 e2 e3 e4 hx' hy'
  rw [hx', hy', hinj e1, e2, e3, e4]

/-- A leg that can decay: it can lead and is heavier than the other legs together. -/
def CanDecay (ls : List (Item S)) (o : Item S) : Prop :=
  CanLead A o ∧ ((ls.erase o).map fun x => A.mass x.specie).sum < A.mass o.specie

theorem legs_nodup_index (d : Decl S) (h0 : d.left.length = d.antiL.length) (h1 : d.right.length = d.antiR.length) :
    ((legs d.left d.right d.antiL d.antiR).map (·.index)).Nodup := by
  have e : (legs d.left d.right d.antiL d.antiR).map (·.index) = List.range (d.left.length + d.right.length) := by
    apply List.ext_getElem
    · rw [List.length_map, legs_length _ _ _ _ h0 h1, List.length_range]
    · intro i hi hi'
      rw [List.getElem_map, List.getElem_range]
      unfold legs
      by_cases hc : i < (List.mapIdx (fun i (x : S × Bool) => (⟨-1, x.1, x.2, i, false⟩ : Item S)) (d.left.zip d.antiL)).length
      · rw [List.getElem_append_left hc, List.getElem_mapIdx]
      · rw [List.getElem_append_right (by omega), List.getElem_mapIdx]
        simp only [List.length_mapIdx, List.length_zip, ← h0, min_self] at hc ⊢
        omega
  rw [e]
  exact List.nodup_range

open Classical in
theorem decays_perm (hinj : Function.Injective A.name) (d : Decl S) (h0 : d.left.length = d.antiL.length)
    (h1 : d.right.length = d.antiR.length) (hl : 3 ≤ d.left.length + d.right.length) (s : S) (rs : List (List (Item S)))
    (hrs : reactionsMap A.toAttr d.left d.right d.antiL d.antiR = .ok rs) :
    let ls := legs d.left d.right d.antiL d.antiR
    (rs.filter fun r => (r.head?.map (·.specie)) = some s ∧ (r.filter (·.side = -1)).length = 1).Perm
      ((ls.filter fun o => o.specie = s ∧ CanDecay A ls o).map (decayOf A ls)) := by
  intro ls
  obtain ⟨rs', r1, r2, r3⟩ := reactionsMap_mem A.toAttr d.left d.right d.antiL d.antiR h0 h1
  rw [r1] at hrs
  obtain rfl := Except.ok.inj hrs
  have hidx := legs_nodup_index d h0 h1
  have hnd : ls.Nodup := hidx.of_map
  have hls : ls.length = d.left.length + d.right.length := legs_length _ _ _ _ h0 h1
  have hsides : ∀ x ∈ ls, x.side = -1 ∨ x.side = 1 := legs_side _ _ _ _
  have hR1 : ∀ (l : List (Item S)), (∀ x ∈ l, x ∈ ls) → ∀ x ∈ l.map (toSide A.toAttr 1), x.side = 1 := by
    intro l h x hx
    obtain ⟨y, hy, rfl⟩ := List.mem_map.mp hx
    exact toSide_side A.toAttr 1 y (hsides y (h y hy)) (Or.inr rfl)
  rw [List.perm_ext_iff_of_nodup (r2.filter _)]
  · intro r
    rw [List.mem_filter, List.mem_map, r3]
    simp only [decide_eq_true_eq]
    constructor
    · rintro ⟨⟨p, i, hp, hi, hro⟩, hh, hone⟩
      have hs : ∀ x ∈ p, x.side = -1 ∨ x.side = 1 := fun x hx => hsides x (hp.mem_iff.mp hx)
      obtain ⟨h, L, R, e1, e2, -, hL, hR, e3⟩ := reactionOf_eq A.toAttr p i hi hs
      rw [e3] at hro
      split_ifs at hro with c1 c2
      · simp at hro
      · simp at hro
      obtain rfl := Option.some.inj (Except.ok.inj hro)
      have hf : ((h :: sortItems A.toAttr L ++ sortItems A.toAttr R).filter (·.side = -1)) = h :: sortItems A.toAttr L := by
        refine (filter_sides _ _ ?_ ?_).1
        · intro x hx
          apply hL
          rcases List.mem_cons.mp hx with rfl | hx
          · exact List.mem_cons_self ..
          · exact List.mem_cons_of_mem _ ((sortItems_perm A.toAttr L).mem_iff.mp hx)
        · intro x hx; exact hR x ((sortItems_perm A.toAttr R).mem_iff.mp hx)
      rw [hf, List.length_cons, (sortItems_perm A.toAttr L).length_eq] at hone
      have hL0 : L = [] := List.length_eq_zero_iff.mp (by omega)
      subst hL0
      have hi0 : i = 0 := by
        have := congrArg List.length e1
        rw [List.length_map, List.length_take, List.length_singleton] at this
        omega
      subst hi0
      cases p with
      | nil => simp at hi
      | cons o p =>
        simp only [zero_add, List.take_succ_cons, List.take_zero, List.map_cons, List.map_nil, List.cons.injEq, and_true] at e1
        simp only [zero_add, List.drop_succ_cons, List.drop_zero] at e2
        have ho : o ∈ ls := hp.subset (List.mem_cons_self ..)
        have hp' : p.Perm (ls.erase o) := List.cons_perm_iff_perm_erase.mp hp |>.2
        have hpm : ∀ x ∈ p, x ∈ ls := fun x hx => hp.subset (List.mem_cons_of_mem _ hx)
        refine ⟨o, List.mem_filter.mpr ⟨ho, ?_⟩, ?_⟩
        · simp only [decide_eq_true_eq]
          refine ⟨?_, ?_, ?_⟩
          · have : some h.specie = some s := hh
            rw [← e1, toSide_specie] at this
            exact Option.some.inj this
          · rw [← toSide_anti A o (hs o (List.mem_cons_self ..)), e1]
            simpa using c1
          · have := (not_or.mp c2).1
            simp only [true_and, not_le] at this
            rw [e2, totalMass_side, ← e1, toSide_specie] at this
            rw [← (hp'.map fun x => A.mass x.specie).sum_eq]
            exact this
        · unfold decayOf
          rw [e1, e2]
          change h :: _ = h :: ([] ++ _)
          rw [List.nil_append, sortItems_congr A hinj _ _ 1 (hR1 _ fun x hx => List.mem_of_mem_erase hx) (hp'.symm.map _)]
    · rintro ⟨o, ho, rfl⟩
      rw [List.mem_filter] at ho
      simp only [decide_eq_true_eq] at ho
      obtain ⟨ho, rfl, hc, hm⟩ := ho
      have hp : (o :: ls.erase o).Perm ls := (List.perm_cons_erase ho).symm
      have hs : ∀ x ∈ o :: ls.erase o, x.side = -1 ∨ x.side = 1 := fun x hx => hsides x (hp.mem_iff.mp hx)
      have hlen : (o :: ls.erase o).length = d.left.length + d.right.length := by rw [hp.length_eq, hls]
      have hi : 0 + 1 < (o :: ls.erase o).length := by omega
      refine ⟨⟨_, 0, hp, hi, ?_⟩, ?_, ?_⟩
      · obtain ⟨h, L, R, e1, e2, -, hL, hR, e3⟩ := reactionOf_eq A.toAttr _ 0 hi hs
        simp only [zero_add, List.take_succ_cons, List.take_zero, List.map_cons, List.map_nil, List.cons.injEq] at e1
        simp only [zero_add, List.drop_succ_cons, List.drop_zero] at e2
        obtain ⟨rfl, rfl⟩ := e1
        have ha := (toSide_anti A o (hs o (List.mem_cons_self ..))).mpr hc
        rw [e3, if_neg (by simp [ha]), if_neg]
        · unfold decayOf
          rw [e2]
          rfl
        · rintro (⟨-, k⟩ | ⟨y, k, -⟩)
          · rw [e2, totalMass_side, toSide_specie] at k
            linarith
          · have := congrArg List.length (e2.symm.trans k)
            rw [List.length_map, List.length_singleton] at this
            rw [List.length_cons, this] at hlen
            omega
      · simp [decayOf, toSide_specie]
      · unfold decayOf
        have hf := (filter_sides [toSide A.toAttr (-1) o] (sortItems A.toAttr ((ls.erase o).map (toSide A.toAttr 1)))
          (by intro x hx; rw [List.mem_singleton.mp hx]; exact toSide_side A.toAttr (-1) o (hsides o ho) (Or.inl rfl))
          (by
            intro x hx
            exact hR1 _ (fun y hy => List.mem_of_mem_erase hy) x ((sortItems_perm A.toAttr _).mem_iff.mp hx))).1
        rw [List.singleton_append] at hf
        rw [hf]; rfl
  · refine List.Nodup.map_on ?_ (hnd.filter _)
    intro x hx y hy he
    have e := (List.cons.inj he).1
    have e' := congrArg Item.index e
    rw [toSide_index, toSide_index] at e'
    exact List.inj_on_of_nodup_map hidx (List.mem_of_mem_filter hx) (List.mem_of_mem_filter hy) e'

open Classical in
/-- The total strength of the decays of `s` generated from a four-particle declaration: each leg of the species `s` that
can lead and is heavier than the rest contributes the sum of the declared `K1`. -/
theorem strength_generated (hinj : Function.Injective A.name) (d : Decl S) (h0 : d.left.length = d.antiL.length)
    (h1 : d.right.length = d.antiR.length) (hl : 3 ≤ d.left.length + d.right.length) (Ms : List M4)
    (hM : ∀ x ∈ Ms, x.K = 0 ∧ [x.order.a, x.order.b, x.order.c, x.order.d].Perm
      (List.range (d.left.length + d.right.length))) (s : S) :
    ∃ out, crossGenerating A.toAttr d.left d.right d.antiL d.antiR Ms = .ok out ∧
      strength s out = (((legs d.left d.right d.antiL d.antiR).filter fun o => o.specie = s ∧
        CanDecay A (legs d.left d.right d.antiL d.antiR) o).length : ℝ) * sumK1 Ms := by
  obtain ⟨rs, ints, out, g1, g2, -, g3, g4, -⟩ := generated_ints A.toAttr d.left d.right d.antiL d.antiR h0 h1 Ms hM
  refine ⟨out, g2, ?_⟩
  rw [g4, strength_dedup]
  have cnt : ∀ (rs : List (List (Item S))) (ints : List (Integral4 S)), List.Forall₂ (fun r i => Integral4.reaction i = r ∧
      (r.head?.map (·.specie)) = some i.particle ∧ List.Forall₂ (fun x y => relabel r x = .ok y) Ms i.Ms) rs ints →
      strength s ints = ((rs.filter fun r => (r.head?.map (·.specie)) = some s ∧
        (r.filter (·.side = -1)).length = 1).length : ℝ) * sumK1 Ms := by
    intro rs ints h
    induction h with
    | nil => simp [strength_nil]
    | @cons r i rs ints h _ ih =>
      obtain ⟨e1, e2, e3⟩ := h
      rw [strength_cons, ih]
      by_cases hd : IsDecayOf s i
      · have hd' := hd
        unfold IsDecayOf at hd'
        rw [if_pos hd, List.filter_cons_of_pos (by simp only [decide_eq_true_eq]; rw [e2, ← e1]; exact ⟨by rw [hd'.1], hd'.2⟩),
          forall2_sumK1 r e3, List.length_cons]
        push_cast; ring
      · rw [if_neg hd, List.filter_cons_of_neg, zero_add]
        simp only [decide_eq_true_eq]
        rintro ⟨k1, k2⟩
        rw [e2] at k1
        exact hd ⟨Option.some.inj k1, by rw [e1]; exact k2⟩
  rw [cnt rs ints g3, (decays_perm A hinj d h0 h1 hl s rs g1).length_eq, List.length_map]

/-- The integrals of a declaration: their reactions, first particles, and which species have one. -/
theorem generated_owner (d : Decl S) (h0 : d.left.length = d.antiL.length) (h1 : d.right.length = d.antiR.length)
    (Ms : List M4) (hM : ∀ x ∈ Ms, x.K = 0 ∧ [x.order.a, x.order.b, x.order.c, x.order.d].Perm
      (List.range (d.left.length + d.right.length))) (out : List (Integral4 S))
    (ho : crossGenerating A.toAttr d.left d.right d.antiL d.antiR Ms = .ok out) :
    ∃ rs, reactionsMap A.toAttr d.left d.right d.antiL d.antiR = .ok rs ∧
      (∀ i ∈ out, i.reaction ∈ rs ∧ i.reaction.head?.map (·.specie) = some i.particle) ∧
      ∀ s, (∃ i ∈ out, i.particle = s) ↔ HasIntegral A d s := by
  obtain ⟨rs, ints, out', g1, g2, -, g3, g4, -⟩ := generated_ints A.toAttr d.left d.right d.antiL d.antiR h0 h1 Ms hM
  obtain rfl : out' = out := Except.ok.inj (g2.symm.trans ho)
  have fwd : ∀ (rs : List (List (Item S))) (ints : List (Integral4 S)), List.Forall₂ (fun r i => Integral4.reaction i = r ∧
      (r.head?.map (·.specie)) = some i.particle ∧ List.Forall₂ (fun x y => relabel r x = .ok y) Ms i.Ms) rs ints →
      (∀ i ∈ ints, i.reaction ∈ rs ∧ i.reaction.head?.map (·.specie) = some i.particle) ∧
      ∀ r ∈ rs, ∃ i ∈ ints, i.reaction = r := by
    intro rs ints h
    induction h with
    | nil => simp
    | @cons r i rs ints h _ ih =>
      obtain ⟨e1, e2, -⟩ := h
      constructor
      · intro j hj
        rcases List.mem_cons.mp hj with rfl | hj
        · exact ⟨by rw [e1]; exact List.mem_cons_self .., by rw [e1]; exact e2⟩
        · exact ⟨List.mem_cons_of_mem _ (ih.1 j hj).1, (ih.1 j hj).2⟩
      · intro r' hr
        rcases List.mem_cons.mp hr with rfl | hr
        · exact ⟨i, List.mem_cons_self .., e1⟩
        · obtain ⟨j, hj, e⟩ := ih.2 r' hr
          exact ⟨j, List.mem_cons_of_mem _ hj, e⟩
  obtain ⟨f1, f2⟩ := fwd rs ints g3
  obtain ⟨k1, k2⟩ := C44_represented ints
  have p1 : ∀ i ∈ out', i.reaction ∈ rs ∧ i.reaction.head?.map (·.specie) = some i.particle := by
    intro i hi
    rw [g4] at hi
    obtain ⟨j, hj, e1, e2⟩ := k2 i hi
    rw [e1, e2]
    exact f1 j hj
  refine ⟨rs, g1, p1, fun s => ⟨?_, ?_⟩⟩
  · rintro ⟨i, hi, rfl⟩
    obtain ⟨q1, q2⟩ := p1 i hi
    cases hr : i.reaction with
    | nil => rw [hr] at q2; simp at q2
    | cons h t =>
      rw [hr] at q1 q2
      exact ⟨rs, g1, h, t, q1, by simpa using q2⟩
  · rintro ⟨rs', hrs, h, t, hr, rfl⟩
    obtain rfl : rs' = rs := Except.ok.inj (hrs.symm.trans g1)
    obtain ⟨j, hj, e⟩ := f2 _ hr
    obtain ⟨o, hom, hk⟩ := k1 j hj
    refine ⟨o, by rw [g4]; exact hom, ?_⟩
    rw [← hk.1]
    have := (f1 j hj).2
    rw [e] at this
    simpa using this.symm

theorem strength_filter_keep (s : S) (l : List (Integral4 S)) (p : Integral4 S → Bool)
    (h : ∀ i ∈ l, IsDecayOf s i → p i = true) : strength s (l.filter p) = strength s l := by
  classical
  induction l with
  | nil => rfl
  | cons i l ih =>
    have ih := ih fun j hj => h j (List.mem_cons_of_mem _ hj)
    by_cases hp : p i = true
    · rw [List.filter_cons_of_pos hp, strength_cons, strength_cons, ih]
    · rw [List.filter_cons_of_neg hp, strength_cons, ih, if_neg fun hd => hp (h i (List.mem_cons_self ..) hd), zero_add]

theorem strength_none (s : S) (l : List (Integral4 S)) (h : ∀ i ∈ l, i.particle ≠ s) : strength s l = 0 := by
  classical
  induction l with
  | nil => rfl
  | cons i l ih =>
    rw [strength_cons, ih fun j hj => h j (List.mem_cons_of_mem _ hj), if_neg fun hd => h i (List.mem_cons_self ..) hd.1, zero_add]

theorem strength_mapM {J : Type*} (s : S) (g : J → Except Err (List (Integral4 S))) (f : J → ℝ) (l : List J)
    (h : ∀ j ∈ l, ∃ o, g j = .ok o ∧ strength s o = f j) :
    ∃ xs, l.mapM g = .ok xs ∧ strength s xs.flatten = (l.map f).sum := by
  induction l with
  | nil => exact ⟨[], rfl, rfl⟩
  | cons j l ih =>
    obtain ⟨o, h1, h2⟩ := h j (List.mem_cons_self ..)
    obtain ⟨xs, h3, h4⟩ := ih fun k hk => h k (List.mem_cons_of_mem _ hk)
    refine ⟨o :: xs, ?_, ?_⟩
    · rw [List.mapM_cons, h1, h3]; rfl
    · rw [List.flatten_cons, strength_append, h2, h4, List.map_cons, List.sum_cons]

end
end PyBBN
