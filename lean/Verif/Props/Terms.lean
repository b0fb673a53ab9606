import Verif.Props.Strength
import Verif.Props.Selection
import Mathlib.Data.List.Sublists
import Mathlib.Data.List.Nodup
/-!
# C103: the collision terms of one process in the equations of its participants
-/
namespace PyBBN

set_option linter.unusedSectionVars false

section
variable {S : Type*} [DecidableEq S] (A : LibAttr S)

/-! ## Specification -/

/-- The integral is a term of the equation of `s` for the process with species `L` on the side of `s` and `R` on the
other. -/
def InClass (s : S) (L R : Multiset S) (i : Integral4 S) : Prop :=
  i.particle = s ∧ ((speciesOn (-1) i.reaction : List S) : Multiset S) = L ∧
    ((speciesOn 1 i.reaction : List S) : Multiset S) = R

/-- The factor by which `integrate` multiplies the integral: `CollisionMultiplier4p`. -/
noncomputable def multOf (i : Integral4 S) : ℝ :=
  match multiplier4 A.toAttr (decide (A.Q i.particle ≠ 0)) i.reaction with
  | .ok n => n
  | .error _ => 0

open Classical in
/-- Total coefficient with which a process enters the equation of `s`. -/
noncomputable def rateIn (l : List (Integral4 S)) (s : S) (L R : Multiset S) : ℝ :=
  ((l.filter fun i => InClass s L R i).map fun i => multOf A i * sumK1 i.Ms).sum

/-- All participants of a process feel it with the same coefficient, times the number of particles of the species that
take part on the side in question. -/
def BalancedIn (l : List (Integral4 S)) (L R : Multiset S) : Prop :=
  ∃ w : ℝ, (∀ s ∈ L, rateIn A l s L R = L.count s * w) ∧ ∀ s ∈ R, rateIn A l s R L = R.count s * w

/-! ## Coefficients without the multiplier -/

open Classical in
noncomputable def coeffIn (l : List (Integral4 S)) (s : S) (L R : Multiset S) : ℝ :=
  ((l.filter fun i => InClass s L R i).map fun i => sumK1 i.Ms).sum

open Classical in
theorem coeffIn_cons (i : Integral4 S) (l : List (Integral4 S)) (s : S) (L R : Multiset S) :
    coeffIn (i :: l) s L R = (if InClass s L R i then sumK1 i.Ms else 0) + coeffIn l s L R := by
  unfold coeffIn
  by_cases h : InClass s L R i
  · rw [List.filter_cons_of_pos (by simpa using h), if_pos h, List.map_cons, List.sum_cons]
  · rw [List.filter_cons_of_neg (by simpa using h), if_neg h, zero_add]

theorem coeffIn_append (l l' : List (Integral4 S)) (s : S) (L R : Multiset S) :
    coeffIn (l ++ l') s L R = coeffIn l s L R + coeffIn l' s L R := by
  simp [coeffIn]

theorem inClass_sameKey (s : S) (L R : Multiset S) (i j : Integral4 S) (h : SameKey i j) :
    InClass s L R i ↔ InClass s L R j := by
  unfold InClass
  have h1 := (speciesOn_perm (-1) i.reaction j.reaction).mpr h.2.1
  have h2 := (speciesOn_perm 1 i.reaction j.reaction).mpr h.2.2
  rw [List.isPerm_iff] at h1 h2
  rw [h.1, Multiset.coe_eq_coe.mpr h1, Multiset.coe_eq_coe.mpr h2]

/-- Merging does not change the coefficients. -/
theorem coeffIn_dedup (l : List (Integral4 S)) (s : S) (L R : Multiset S) :
    coeffIn (dedup l) s L R = coeffIn l s L R := by
  classical
  have one : ∀ (l : List (Integral4 S)) (n : Integral4 S), coeffIn (dedupAppend l n) s L R = coeffIn (n :: l) s L R := by
    intro l n
    induction l with
    | nil => rfl
    | cons o l ih =>
      unfold dedupAppend
      split_ifs with h
      · have hk := (similar_iff n o).mp h
        have e1 : InClass s L R { o with Ms := mergeMs o.Ms n.Ms } ↔ InClass s L R o := Iff.rfl
        have e2 := inClass_sameKey s L R n o hk
        rw [coeffIn_cons, coeffIn_cons, coeffIn_cons]
        by_cases hd : InClass s L R o
        · rw [if_pos (e1.mpr hd), if_pos (e2.mpr hd), if_pos hd, mergeMs_K1]; ring
        · rw [if_neg (fun x => hd (e1.mp x)), if_neg (fun x => hd (e2.mp x)), if_neg hd]; ring
      · rw [coeffIn_cons, ih, coeffIn_cons, coeffIn_cons, coeffIn_cons]; ring
  have gen : ∀ (l acc : List (Integral4 S)), coeffIn (l.foldl dedupAppend acc) s L R = coeffIn l s L R + coeffIn acc s L R := by
    intro l
    induction l with
    | nil => intro acc; simp [coeffIn]
    | cons n l ih => intro acc; rw [List.foldl_cons, ih, one, coeffIn_cons, coeffIn_cons]; ring
  have := gen l []
  rw [show coeffIn ([] : List (Integral4 S)) s L R = 0 by simp [coeffIn], add_zero] at this
  exact this

/-- Keeping or dropping a whole class. -/
theorem coeffIn_keep (l : List (Integral4 S)) (p : Integral4 S → Bool) (s : S) (L R : Multiset S)
    (h : ∀ i ∈ l, InClass s L R i → p i = true) : coeffIn (l.filter p) s L R = coeffIn l s L R := by
  classical
  induction l with
  | nil => rfl
  | cons i l ih =>
    have ih := ih fun j hj => h j (List.mem_cons_of_mem _ hj)
    by_cases hp : p i = true
    · rw [List.filter_cons_of_pos hp, coeffIn_cons, coeffIn_cons, ih]
    · rw [List.filter_cons_of_neg hp, coeffIn_cons, ih, if_neg fun hd => hp (h i (List.mem_cons_self ..) hd), zero_add]

theorem coeffIn_drop (l : List (Integral4 S)) (p : Integral4 S → Bool) (s : S) (L R : Multiset S)
    (h : ∀ i ∈ l, InClass s L R i → p i = false) : coeffIn (l.filter p) s L R = 0 := by
  classical
  induction l with
  | nil => simp [coeffIn]
  | cons i l ih =>
    have ih := ih fun j hj => h j (List.mem_cons_of_mem _ hj)
    by_cases hp : p i = true
    · rw [List.filter_cons_of_pos hp, coeffIn_cons, ih, if_neg, zero_add]
      intro hd
      rw [h i (List.mem_cons_self ..) hd] at hp
      exact Bool.false_ne_true hp
    · rw [List.filter_cons_of_neg hp, ih]

/-- The multiplier of a class that contains the heavy neutrino. -/
def classMult (s : S) (L R : Multiset S) : ℕ :=
  if L.count s = 2 ∧ (R.count s = 0 ∨ R.count s = 1) then 2 else if L.count s = 3 ∧ R.count s = 0 then 3 else 1

theorem multOf_class (i : Integral4 S) (s : S) (L R : Multiset S) (h : InClass s L R i)
    (hh : i.reaction.head?.map (·.specie) = some i.particle) (N : S) (hN : N ∈ L + R) (hname : A.name N = hnlName) :
    multOf A i = classMult s L R := by
  obtain ⟨h1, h2, h3⟩ := h
  have hmem : hnlName ∈ i.reaction.map (fun x => A.name x.specie) := by
    rw [← h2, ← h3] at hN
    rcases Multiset.mem_add.mp hN with hN | hN
    all_goals
      rw [Multiset.mem_coe] at hN
      unfold speciesOn at hN
      obtain ⟨x, hx, rfl⟩ := List.mem_map.mp hN
      exact List.mem_map.mpr ⟨x, List.mem_of_mem_filter hx, hname⟩
  have hc : ∀ k, countSide i.reaction k s = ((speciesOn k i.reaction : List S) : Multiset S).count s := by
    intro k
    unfold countSide speciesOn
    rw [Multiset.coe_count]
  unfold multOf
  cases hr : i.reaction with
  | nil => rw [hr] at hh; simp at hh
  | cons x0 t =>
    rw [hr] at hh hc hmem h2 h3
    have hx0 : x0.specie = s := by rw [← h1]; simpa using hh
    unfold multiplier4
    simp only [if_pos hmem]
    rw [hx0, hc, hc, h2, h3]
    unfold classMult
    split_ifs <;> simp

theorem rateIn_eq (l : List (Integral4 S)) (s : S) (L R : Multiset S)
    (hh : ∀ i ∈ l, i.reaction.head?.map (·.specie) = some i.particle) (N : S) (hN : N ∈ L + R) (hname : A.name N = hnlName) :
    rateIn A l s L R = classMult s L R * coeffIn l s L R := by
  classical
  induction l with
  | nil => simp [rateIn, coeffIn]
  | cons i l ih =>
    have ih := ih fun j hj => hh j (List.mem_cons_of_mem _ hj)
    have e : rateIn A (i :: l) s L R = (if InClass s L R i then multOf A i * sumK1 i.Ms else 0) + rateIn A l s L R := by
      unfold rateIn
      by_cases h : InClass s L R i
      · rw [List.filter_cons_of_pos (by simpa using h), if_pos h, List.map_cons, List.sum_cons]
      · rw [List.filter_cons_of_neg (by simpa using h), if_neg h, zero_add]
    rw [e, ih, coeffIn_cons]
    by_cases h : InClass s L R i
    · rw [if_pos h, if_pos h, multOf_class A i s L R h (hh i (List.mem_cons_self ..)) N hN hname, mul_add]
    · rw [if_neg h, if_neg h, zero_add, zero_add]

/-! ## The reactions of a declaration, one by one -/

/-- A leading leg and the legs that stay with it. -/
def choices (ls : List (Item S)) : List (Item S × List (Item S)) :=
  ls.flatMap fun o => (ls.erase o).sublists.map fun T => (o, T)

/-- The legs on the other side. -/
def otherLegs (ls : List (Item S)) (x : Item S × List (Item S)) : List (Item S) := (ls.erase x.1).filter (· ∉ x.2)

/-- The reaction for a choice. -/
def crossWith (ls : List (Item S)) (x : Item S × List (Item S)) : List (Item S) :=
  (toSide A.toAttr (-1) x.1 :: sortItems A.toAttr (x.2.map (toSide A.toAttr (-1)))) ++
    sortItems A.toAttr ((otherLegs ls x).map (toSide A.toAttr 1))

theorem mem_choices (ls : List (Item S)) (x : Item S × List (Item S)) :
    x ∈ choices ls ↔ x.1 ∈ ls ∧ x.2.Sublist (ls.erase x.1) := by
  unfold choices
  simp only [List.mem_flatMap, List.mem_map, List.mem_sublists]
  constructor
  · rintro ⟨o, ho, T, hT, rfl⟩; exact ⟨ho, hT⟩
  · rintro ⟨h1, h2⟩; exact ⟨x.1, h1, x.2, h2, rfl⟩

theorem choices_nodup (ls : List (Item S)) (h : ls.Nodup) : (choices ls).Nodup := by
  unfold choices
  rw [List.nodup_flatMap]
  refine ⟨fun o _ => ?_, ?_⟩
  · exact (List.nodup_sublists.mpr (h.erase o)).map fun a b h => (Prod.mk.inj h).2
  · refine h.imp ?_
    intro a b hab x hx hy
    obtain ⟨T, -, rfl⟩ := List.mem_map.mp hx
    obtain ⟨T', -, e⟩ := List.mem_map.mp hy
    exact hab (Prod.mk.inj e).1.symm

/-- A choice that yields a reaction. -/
def Opens (ls : List (Item S)) (x : Item S × List (Item S)) : Prop :=
  CanLead A x.1 ∧ otherLegs ls x ≠ [] ∧
    (x.2 = [] → ((otherLegs ls x).map fun y => A.mass y.specie).sum < A.mass x.1.specie) ∧
    ∀ y, otherLegs ls x = [y] → ((x.1 :: x.2).map fun z => A.mass z.specie).sum < A.mass y.specie

theorem choice_perm (ls : List (Item S)) (hn : ls.Nodup) (x : Item S × List (Item S)) (hx : x ∈ choices ls) :
    (x.1 :: (x.2 ++ otherLegs ls x)).Perm ls := by
  obtain ⟨h1, h2⟩ := (mem_choices ls x).mp hx
  refine List.Perm.trans (List.Perm.cons _ ?_) (List.perm_cons_erase h1).symm
  have hne := hn.erase x.1
  rw [List.perm_ext_iff_of_nodup _ hne]
  · intro y
    unfold otherLegs
    rw [List.mem_append, List.mem_filter]
    constructor
    · rintro (h | h)
      · exact h2.subset h
      · exact h.1
    · intro h
      by_cases hy : y ∈ x.2
      · exact Or.inl hy
      · exact Or.inr ⟨h, by simpa using hy⟩
  · rw [List.nodup_append]
    refine ⟨h2.nodup hne, hne.filter _, ?_⟩
    rintro y hy z hz rfl
    have := (List.mem_filter.mp hz).2
    simp only [decide_eq_true_eq] at this
    exact this hy

/-- The reactions of a declaration are exactly those of the choices that yield one. -/
theorem crossings_mem (hinj : Function.Injective A.name) (d : Decl S) (h0 : d.left.length = d.antiL.length)
    (h1 : d.right.length = d.antiR.length) (rs : List (List (Item S)))
    (hrs : reactionsMap A.toAttr d.left d.right d.antiL d.antiR = .ok rs) (r : List (Item S)) :
    let ls := legs d.left d.right d.antiL d.antiR
    r ∈ rs ↔ ∃ x ∈ choices ls, Opens A ls x ∧ crossWith A ls x = r := by
  intro ls
  obtain ⟨rs', r1, -, r3⟩ := reactionsMap_mem A.toAttr d.left d.right d.antiL d.antiR h0 h1
  rw [r1] at hrs
  obtain rfl := Except.ok.inj hrs
  have hnd : ls.Nodup := (legs_nodup_index d h0 h1).of_map
  have hsides : ∀ x ∈ ls, x.side = -1 ∨ x.side = 1 := legs_side _ _ _ _
  have hsd : ∀ (k : ℤ), (k = -1 ∨ k = 1) → ∀ (l : List (Item S)), (∀ x ∈ l, x ∈ ls) →
      ∀ x ∈ l.map (toSide A.toAttr k), x.side = k := by
    intro k hk l h x hx
    obtain ⟨y, hy, rfl⟩ := List.mem_map.mp hx
    exact toSide_side A.toAttr k y (hsides y (h y hy)) hk
  rw [r3]
  constructor
  · rintro ⟨p, i, hp, hi, hro⟩
    have hs : ∀ x ∈ p, x.side = -1 ∨ x.side = 1 := fun x hx => hsides x (hp.mem_iff.mp hx)
    obtain ⟨h, L, R, e1, e2, hR0, -, -, e3⟩ := reactionOf_eq A.toAttr p i hi hs
    rw [e3] at hro
    split_ifs at hro with c1 c2
    · simp at hro
    · simp at hro
    obtain rfl := Option.some.inj (Except.ok.inj hro)
    cases p with
    | nil => simp at hi
    | cons o p =>
      rw [List.take_succ_cons, List.map_cons, List.cons.injEq] at e1
      rw [List.drop_succ_cons] at e2
      obtain ⟨e0, e1⟩ := e1
      have ho : o ∈ ls := hp.subset (List.mem_cons_self ..)
      have hp' : p.Perm (ls.erase o) := List.cons_perm_iff_perm_erase.mp hp |>.2
      have hpn : (p.take i ++ p.drop i).Nodup := by
        rw [List.take_append_drop]; exact hp'.nodup_iff.mpr (hnd.erase o)
      have hmem : ∀ y, y ∈ ls.erase o ↔ y ∈ p.take i ∨ y ∈ p.drop i := by
        intro y; rw [← hp'.mem_iff, ← List.mem_append, List.take_append_drop]
      obtain ⟨n1, n2, n3⟩ := List.nodup_append.mp hpn
      let x : Item S × List (Item S) := (o, (ls.erase o).filter (· ∈ p.take i))
      have hx : x ∈ choices ls := (mem_choices ls x).mpr ⟨ho, List.filter_sublist⟩
      have pT : x.2.Perm (p.take i) := by
        rw [List.perm_ext_iff_of_nodup ((hnd.erase o).filter _) n1]
        intro y
        rw [List.mem_filter, hmem]
        simp only [decide_eq_true_eq]
        tauto
      have pR : (otherLegs ls x).Perm (p.drop i) := by
        unfold otherLegs
        rw [List.perm_ext_iff_of_nodup ((hnd.erase o).filter _) n2]
        intro y
        rw [List.mem_filter, hmem]
        simp only [decide_eq_true_eq, pT.mem_iff]
        constructor
        · tauto
        · intro hy; exact ⟨Or.inr hy, fun hy' => n3 y hy' y hy rfl⟩
      have mT : ∀ y ∈ x.2, y ∈ ls := fun y hy => List.mem_of_mem_erase (List.mem_of_mem_filter hy)
      have mR : ∀ y ∈ otherLegs ls x, y ∈ ls := fun y hy => List.mem_of_mem_erase (List.mem_of_mem_filter hy)
      refine ⟨x, hx, ⟨?_, ?_, ?_, ?_⟩, ?_⟩
      · rw [← toSide_anti A o (hs o (List.mem_cons_self ..)), e0]
        simpa using c1
      · intro hc
        rw [hc] at pR
        rw [e2, (List.nil_perm.mp pR)] at hR0
        exact hR0 rfl
      · intro hT
        have hT' : L = [] := by
          rw [hT] at pT
          rw [← e1, List.nil_perm.mp pT, List.map_nil]
        have := not_and.mp (not_or.mp c2).1 hT'
        rw [not_le, e2, totalMass_side, ← e0, toSide_specie] at this
        rw [(pR.map fun y => A.mass y.specie).sum_eq]
        exact this
      · intro y hy
        rw [hy] at pR
        have hd : p.drop i = [y] := (List.singleton_perm.mp pR).symm
        have := not_exists.mp (not_or.mp c2).2 (toSide A.toAttr 1 y)
        rw [e2, hd] at this
        have := not_and.mp this rfl
        rw [not_le, ← e0, ← e1, ← List.map_cons, totalMass_side, toSide_specie] at this
        rw [((pT.cons o).map fun y => A.mass y.specie).sum_eq]
        exact this
      · unfold crossWith
        rw [sortItems_congr A hinj _ _ (-1) (hsd (-1) (Or.inl rfl) _ mT) (pT.map _),
          sortItems_congr A hinj _ _ 1 (hsd 1 (Or.inr rfl) _ mR) (pR.map _), e0, e1, e2]
  · rintro ⟨x, hx, ⟨hc, hR, m1, m2⟩, rfl⟩
    have hp := choice_perm ls hnd x hx
    have hs : ∀ y ∈ x.1 :: (x.2 ++ otherLegs ls x), y.side = -1 ∨ y.side = 1 := fun y hy => hsides y (hp.mem_iff.mp hy)
    have hRl : 0 < (otherLegs ls x).length := List.length_pos_iff.mpr hR
    have hi : x.2.length + 1 < (x.1 :: (x.2 ++ otherLegs ls x)).length := by
      rw [List.length_cons, List.length_append]; omega
    refine ⟨_, x.2.length, hp, hi, ?_⟩
    obtain ⟨h, L, R', e1, e2, -, -, -, e3⟩ := reactionOf_eq A.toAttr _ x.2.length hi hs
    rw [List.take_succ_cons, List.take_left, List.map_cons, List.cons.injEq] at e1
    rw [List.drop_succ_cons, List.drop_left] at e2
    obtain ⟨rfl, rfl⟩ := e1
    have ha := (toSide_anti A x.1 (hs _ (List.mem_cons_self ..))).mpr hc
    rw [e3, if_neg (by simp [ha]), if_neg, e2]
    · rfl
    · rintro (⟨k1, k2⟩ | ⟨y, k1, k2⟩)
      · have := m1 (List.map_eq_nil_iff.mp k1)
        rw [e2, totalMass_side, toSide_specie] at k2
        linarith
      · rw [e2] at k1
        obtain ⟨z, hz, rfl⟩ := List.map_eq_singleton_iff.mp k1
        have := m2 z hz
        rw [← List.map_cons, totalMass_side, toSide_specie] at k2
        linarith

theorem crossWith_sides (ls : List (Item S)) (hs : ∀ y ∈ ls, y.side = -1 ∨ y.side = 1) (x : Item S × List (Item S))
    (hx : x ∈ choices ls) :
    (crossWith A ls x).filter (·.side = -1) =
        toSide A.toAttr (-1) x.1 :: sortItems A.toAttr (x.2.map (toSide A.toAttr (-1))) ∧
      (crossWith A ls x).filter (·.side = 1) = sortItems A.toAttr ((otherLegs ls x).map (toSide A.toAttr 1)) := by
  obtain ⟨h1, h2⟩ := (mem_choices ls x).mp hx
  refine filter_sides _ _ ?_ ?_
  · intro y hy
    rcases List.mem_cons.mp hy with rfl | hy
    · exact toSide_side A.toAttr (-1) _ (hs _ h1) (Or.inl rfl)
    · obtain ⟨z, hz, rfl⟩ := List.mem_map.mp ((sortItems_perm A.toAttr _).mem_iff.mp hy)
      exact toSide_side A.toAttr (-1) z (hs z (List.mem_of_mem_erase (h2.subset hz))) (Or.inl rfl)
  · intro y hy
    obtain ⟨z, hz, rfl⟩ := List.mem_map.mp ((sortItems_perm A.toAttr _).mem_iff.mp hy)
    exact toSide_side A.toAttr 1 z (hs z (List.mem_of_mem_erase (List.mem_of_mem_filter hz))) (Or.inr rfl)

theorem crossWith_species (ls : List (Item S)) (hs : ∀ y ∈ ls, y.side = -1 ∨ y.side = 1) (x : Item S × List (Item S))
    (hx : x ∈ choices ls) :
    (speciesOn (-1) (crossWith A ls x)).Perm ((x.1 :: x.2).map (·.specie)) ∧
      (speciesOn 1 (crossWith A ls x)).Perm ((otherLegs ls x).map (·.specie)) := by
  obtain ⟨f1, f2⟩ := crossWith_sides A ls hs x hx
  have hm : ∀ (k : ℤ) (l : List (Item S)), ((sortItems A.toAttr (l.map (toSide A.toAttr k))).map (·.specie)).Perm
      (l.map (·.specie)) := by
    intro k l
    refine ((sortItems_perm A.toAttr _).map _).trans ?_
    rw [List.map_map]
    refine List.Perm.of_eq (List.map_congr_left fun y _ => ?_)
    exact toSide_specie A k y
  unfold speciesOn
  rw [f1, f2]
  refine ⟨?_, hm 1 _⟩
  rw [List.map_cons, List.map_cons, toSide_specie]
  exact (hm (-1) _).cons _

theorem crossWith_inj (d : Decl S) (h0 : d.left.length = d.antiL.length) (h1 : d.right.length = d.antiR.length)
    (x y : Item S × List (Item S)) (hx : x ∈ choices (legs d.left d.right d.antiL d.antiR))
    (hy : y ∈ choices (legs d.left d.right d.antiL d.antiR))
    (e : crossWith A (legs d.left d.right d.antiL d.antiR) x = crossWith A (legs d.left d.right d.antiL d.antiR) y) :
    x = y := by
  have hidx := legs_nodup_index d h0 h1
  have hs := legs_side d.left d.right d.antiL d.antiR
  have f1 := (crossWith_sides A _ hs x hx).1
  have f2 := (crossWith_sides A _ hs y hy).1
  rw [e, f2, List.cons.injEq] at f1
  obtain ⟨g1, g2⟩ := f1
  obtain ⟨mx, sx⟩ := (mem_choices _ x).mp hx
  obtain ⟨my, sy⟩ := (mem_choices _ y).mp hy
  have k1 : y.1 = x.1 := by
    have := congrArg Item.index g1
    rw [toSide_index, toSide_index] at this
    exact List.inj_on_of_nodup_map hidx my mx this
  obtain ⟨o, T⟩ := x
  obtain ⟨o', T'⟩ := y
  dsimp only at k1 g2 sx sy
  subst k1
  have hpi : (T'.map (·.index)).Perm (T.map (·.index)) := by
    have hm : ∀ l : List (Item S), ((sortItems A.toAttr (l.map (toSide A.toAttr (-1)))).map (·.index)).Perm
        (l.map (·.index)) := by
      intro l
      refine ((sortItems_perm A.toAttr _).map _).trans ?_
      rw [List.map_map]
      exact List.Perm.of_eq (List.map_congr_left fun y _ => toSide_index A (-1) y)
    exact ((hm T').symm.trans (List.Perm.of_eq (by rw [g2]))).trans (hm T)
  have hT : T' = T := by
    have a1 := sy.map (·.index)
    have a2 := sx.map (·.index)
    have hnd : (((legs d.left d.right d.antiL d.antiR).erase o').map (·.index)).Nodup :=
      hidx.sublist (List.erase_sublist.map _)
    have hno := hnd.of_map
    have hm : ∀ z, z ∈ T' ↔ z ∈ T := by
      have one : ∀ U V : List (Item S), U.Sublist ((legs d.left d.right d.antiL d.antiR).erase o') →
          V.Sublist ((legs d.left d.right d.antiL d.antiR).erase o') → (U.map (·.index)).Perm (V.map (·.index)) →
          ∀ z ∈ U, z ∈ V := by
        intro U V hU hV hp z hz
        obtain ⟨w, hw, e⟩ := List.mem_map.mp (hp.subset (List.mem_map_of_mem hz))
        rwa [← List.inj_on_of_nodup_map hnd (hV.subset hw) (hU.subset hz) e]
      exact fun z => ⟨one _ _ sy sx hpi z, one _ _ sx sy hpi.symm z⟩
    have flt : ∀ U : List (Item S), U.Sublist ((legs d.left d.right d.antiL d.antiR).erase o') →
        U = ((legs d.left d.right d.antiL d.antiR).erase o').filter (· ∈ U) := by
      intro U hU
      refine (List.Sublist.eq_of_length_le ?_ ?_)
      · have := hU.filter (fun z => decide (z ∈ U))
        rwa [List.filter_eq_self.mpr (by simp)] at this
      · have hp : (((legs d.left d.right d.antiL d.antiR).erase o').filter (· ∈ U)).Perm U := by
          rw [List.perm_ext_iff_of_nodup (hno.filter _) (hU.nodup hno)]
          intro z
          rw [List.mem_filter, decide_eq_true_eq]
          exact ⟨fun h => h.2, fun h => ⟨hU.subset h, h⟩⟩
        exact hp.length_eq.le
    rw [flt T' sy, flt T sx]
    refine List.filter_congr fun z _ => ?_
    simp only [hm]
  rw [hT]

open Classical in
/-- One reaction for each choice. -/
theorem crossings_perm (hinj : Function.Injective A.name) (d : Decl S) (h0 : d.left.length = d.antiL.length)
    (h1 : d.right.length = d.antiR.length) (rs : List (List (Item S)))
    (hrs : reactionsMap A.toAttr d.left d.right d.antiL d.antiR = .ok rs) :
    let ls := legs d.left d.right d.antiL d.antiR
    rs.Perm (((choices ls).filter fun x => Opens A ls x).map (crossWith A ls)) := by
  intro ls
  have hnd : ls.Nodup := (legs_nodup_index d h0 h1).of_map
  obtain ⟨rs', r1, r2, -⟩ := reactionsMap_mem A.toAttr d.left d.right d.antiL d.antiR h0 h1
  obtain rfl : rs' = rs := Except.ok.inj (r1.symm.trans hrs)
  rw [List.perm_ext_iff_of_nodup r2]
  · intro r
    rw [show r ∈ rs' ↔ ∃ x ∈ choices ls, Opens A ls x ∧ crossWith A ls x = r from crossings_mem A hinj d h0 h1 rs' hrs r,
      List.mem_map]
    simp only [List.mem_filter, decide_eq_true_eq, and_assoc]
  · refine List.Nodup.map_on ?_ ((choices_nodup ls hnd).filter _)
    intro x hx y hy e
    exact crossWith_inj A d h0 h1 x y (List.mem_of_mem_filter hx) (List.mem_of_mem_filter hy) e

/-! ## Counting a class -/

/-- The choices in a class whose leading leg can lead. -/
def countIn (lead : Item S → Bool) (ls : List (Item S)) (s : S) (L R : Multiset S) : ℕ :=
  ((choices ls).filter fun x => lead x.1 && decide (x.1.specie = s) &&
    decide ((((x.1 :: x.2).map (·.specie) : List S) : Multiset S) = L) &&
    decide ((((otherLegs ls x).map (·.specie) : List S) : Multiset S) = R)).length

/-- A particle that leads without being its own antiparticle. -/
def leads {T : Type*} (x : Item T) : Bool := (decide (x.side = -1) && !x.antiparticle) || (decide (x.side = 1) && x.antiparticle)

/-- The reaction is not forbidden by the masses: a single particle is heavier than the other side. -/
def OpenClass (L R : Multiset S) : Prop :=
  R ≠ 0 ∧ (L.card = 1 → (R.map A.mass).sum < (L.map A.mass).sum) ∧ (R.card = 1 → (L.map A.mass).sum < (R.map A.mass).sum)

theorem opens_class (ls : List (Item S)) (x : Item S × List (Item S)) (L R : Multiset S) (ho : OpenClass A L R)
    (hL : (((x.1 :: x.2).map (·.specie) : List S) : Multiset S) = L)
    (hR : (((otherLegs ls x).map (·.specie) : List S) : Multiset S) = R) : Opens A ls x ↔ CanLead A x.1 := by
  obtain ⟨o1, o2, o3⟩ := ho
  have sm : ∀ l : List (Item S), (((l.map (·.specie) : List S) : Multiset S).map A.mass).sum =
      (l.map fun y => A.mass y.specie).sum := by
    intro l
    rw [Multiset.map_coe, Multiset.sum_coe, List.map_map]
    rfl
  constructor
  · exact fun h => h.1
  · intro h
    refine ⟨h, ?_, ?_, ?_⟩
    · rintro e
      rw [e] at hR
      exact o1 hR.symm
    · intro e
      have c : L.card = 1 := by rw [← hL, e]; rfl
      have := o2 c
      rw [← hL, ← hR, sm, sm, e] at this
      simpa using this
    · intro y e
      have c : R.card = 1 := by rw [← hR, e]; rfl
      have := o3 c
      rw [← hL, ← hR, sm, sm, e] at this
      simpa using this

theorem leads_iff (x : Item S) (hm : A.majorana x.specie = false) : leads x = true ↔ CanLead A x := by
  unfold leads CanLead
  simp [hm]

/-- The coefficient of a class in the integrals generated from a declaration. -/
theorem coeffIn_generated (hinj : Function.Injective A.name) (hmaj : ∀ s, A.majorana s = false) (d : Decl S)
    (h0 : d.left.length = d.antiL.length) (h1 : d.right.length = d.antiR.length) (Ms : List M4)
    (hM : ∀ x ∈ Ms, x.K = 0 ∧ [x.order.a, x.order.b, x.order.c, x.order.d].Perm
      (List.range (d.left.length + d.right.length))) (s : S) (L R : Multiset S) (ho : OpenClass A L R)
    (out : List (Integral4 S)) (hout : crossGenerating A.toAttr d.left d.right d.antiL d.antiR Ms = .ok out) :
    coeffIn out s L R = countIn leads (legs d.left d.right d.antiL d.antiR) s L R * sumK1 Ms := by
  classical
  obtain ⟨rs, ints, out', g1, g2, -, g3, g4, -⟩ := generated_ints A.toAttr d.left d.right d.antiL d.antiR h0 h1 Ms hM
  obtain rfl : out' = out := Except.ok.inj (g2.symm.trans hout)
  rw [g4, coeffIn_dedup]
  have cnt : ∀ (rs : List (List (Item S))) (ints : List (Integral4 S)), List.Forall₂ (fun r i => Integral4.reaction i = r ∧
      (r.head?.map (·.specie)) = some i.particle ∧ List.Forall₂ (fun x y => relabel r x = .ok y) Ms i.Ms) rs ints →
      coeffIn ints s L R = ((rs.filter fun r => (r.head?.map (·.specie)) = some s ∧
        ((speciesOn (-1) r : List S) : Multiset S) = L ∧ ((speciesOn 1 r : List S) : Multiset S) = R).length : ℝ) * sumK1 Ms := by
    intro rs ints h
    induction h with
    | nil => simp [coeffIn]
    | @cons r i rs ints h _ ih =>
      obtain ⟨e1, e2, e3⟩ := h
      rw [coeffIn_cons, ih]
      have key : InClass s L R i ↔ ((r.head?.map (·.specie)) = some s ∧
        ((speciesOn (-1) r : List S) : Multiset S) = L ∧ ((speciesOn 1 r : List S) : Multiset S) = R) := by
        unfold InClass
        rw [e2, e1, Option.some.injEq]
      by_cases hd : InClass s L R i
      · rw [if_pos hd, List.filter_cons_of_pos (by simpa using key.mp hd), forall2_sumK1 r e3, List.length_cons]
        push_cast; ring
      · rw [if_neg hd, List.filter_cons_of_neg (by simpa using fun h => fun h2 h3 => hd (key.mpr ⟨h, h2, h3⟩)), zero_add]
  rw [cnt rs ints g3]
  congr 2
  rw [((crossings_perm A hinj d h0 h1 rs g1).filter _).length_eq, List.filter_map, List.length_map, List.filter_filter]
  unfold countIn
  congr 1
  refine List.filter_congr fun x hx => ?_
  obtain ⟨q1, q2⟩ := crossWith_species A _ (legs_side d.left d.right d.antiL d.antiR) x hx
  rw [Bool.eq_iff_iff]
  simp only [Function.comp_apply, Bool.and_eq_true, decide_eq_true_eq]
  rw [Multiset.coe_eq_coe.mpr q1, Multiset.coe_eq_coe.mpr q2, leads_iff A x.1 (hmaj _)]
  have hh : ((crossWith A (legs d.left d.right d.antiL d.antiR) x).head?.map (·.specie)) = some s ↔ x.1.specie = s := by
    simp [crossWith, toSide_specie]
  rw [hh]
  constructor
  · rintro ⟨⟨a, b, e⟩, f⟩
    exact ⟨⟨⟨f.1, a⟩, b⟩, e⟩
  · rintro ⟨⟨⟨a, b⟩, e⟩, f⟩
    exact ⟨⟨b, e, f⟩, (opens_class A _ x L R ho e f).mpr a⟩

/-! ## Renaming the species -/

def mapItem {T : Type*} (f : T → S) (x : Item T) : Item S := ⟨x.side, f x.specie, x.antiparticle, x.index, x.crossed⟩

theorem mapItem_inj {T : Type*} (f : T → S) (hf : Function.Injective f) : Function.Injective (mapItem f) := by
  rintro ⟨a, b, c, d, e⟩ ⟨a', b', c', d', e'⟩ h
  simp only [mapItem, Item.mk.injEq] at h ⊢
  exact ⟨h.1, hf h.2.1, h.2.2⟩

theorem countIn_map {T : Type*} [DecidableEq T] (f : T → S) (hf : Function.Injective f) (ls : List (Item T)) (s : T)
    (L R : Multiset T) :
    countIn leads (ls.map (mapItem f)) (f s) (L.map f) (R.map f) = countIn leads ls s L R := by
  have hg := mapItem_inj f hf
  have hc : choices (ls.map (mapItem f)) = (choices ls).map fun x => (mapItem f x.1, x.2.map (mapItem f)) := by
    unfold choices
    rw [List.flatMap_map, List.map_flatMap]
    refine List.flatMap_congr fun o _ => ?_
    rw [← List.map_erase hg, List.sublists_map, List.map_map, List.map_map]
    rfl
  have hot : ∀ x : Item T × List (Item T), otherLegs (ls.map (mapItem f)) (mapItem f x.1, x.2.map (mapItem f)) =
      (otherLegs ls x).map (mapItem f) := by
    intro x
    unfold otherLegs
    dsimp only
    rw [← List.map_erase hg, List.filter_map]
    congr 1
    refine List.filter_congr fun z _ => ?_
    simp only [Function.comp_apply, List.mem_map_of_injective hg]
  unfold countIn
  rw [hc, List.filter_map, List.length_map]
  congr 1
  refine List.filter_congr fun x _ => ?_
  simp only [Function.comp_apply]
  rw [hot, Bool.eq_iff_iff]
  simp only [Bool.and_eq_true, decide_eq_true_eq]
  have sp : ∀ l : List (Item T), (((l.map (mapItem f)).map (·.specie) : List S) : Multiset S) =
      ((l.map (·.specie) : List T) : Multiset T).map f := by
    intro l
    rw [Multiset.map_coe, List.map_map, List.map_map]
    rfl
  rw [← List.map_cons, sp, sp, (Multiset.map_injective hf).eq_iff, (Multiset.map_injective hf).eq_iff]
  have : (mapItem f x.1).specie = f s ↔ x.1.specie = s := hf.eq_iff
  rw [this]
  rfl

end
end PyBBN
