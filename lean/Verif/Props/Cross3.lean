import Verif.Props.Owners
import Verif.Props.Strength
import Verif.Model.Cross3
/-!
# C127: the integrals generated by a declared two-body decay
-/
namespace PyBBN

set_option linter.unusedSectionVars false

section
variable {S : Type*} [DecidableEq S] (A : LibAttr S)

/-! ## Specification -/

/-- The reaction in which the leg `o` comes first, for the decay of the leg `P` into `X` and `Y`: the decay itself for `P`, the
inverse reaction for a product, which takes the other product with it. -/
def channelOf (P X Y o : Item S) : List (Item S) :=
  if o = P then toSide A.toAttr (-1) P :: sortItems A.toAttr [toSide A.toAttr 1 X, toSide A.toAttr 1 Y]
  else if o = X then [toSide A.toAttr (-1) X, toSide A.toAttr (-1) Y, toSide A.toAttr 1 P]
  else [toSide A.toAttr (-1) Y, toSide A.toAttr (-1) X, toSide A.toAttr 1 P]

/-! ## One pass of the loop -/

theorem pass_zero (u v w : Item S) (hs : ∀ x ∈ [u, v, w], x.side = -1 ∨ x.side = 1) (r : List (Item S)) :
    reactionOf A.toAttr [u, v, w] 0 = .ok (some r) ↔ CanLead A u ∧ A.mass v.specie + A.mass w.specie < A.mass u.specie ∧
      r = toSide A.toAttr (-1) u :: sortItems A.toAttr [toSide A.toAttr 1 v, toSide A.toAttr 1 w] := by
  obtain ⟨h, L, R, e1, e2, -, -, -, e3⟩ := reactionOf_eq A.toAttr [u, v, w] 0 (by simp) hs
  simp only [List.take_succ_cons, List.take_zero, List.map_cons, List.map_nil, List.cons.injEq, zero_add] at e1
  simp only [zero_add, List.drop_succ_cons, List.drop_zero, List.map_cons, List.map_nil] at e2
  obtain ⟨rfl, rfl⟩ := e1
  rw [e3, ← toSide_anti A u (hs u (by simp))]
  subst e2
  have m : totalMass A.toAttr [toSide A.toAttr 1 v, toSide A.toAttr 1 w] = A.mass v.specie + A.mass w.specie := by
    simp [totalMass, toSide_specie]
  rw [m, toSide_specie]
  by_cases c1 : (toSide A.toAttr (-1) u).antiparticle = true
  · rw [if_pos c1]
    simp [c1]
  · rw [if_neg c1]
    rw [Bool.not_eq_true] at c1
    have c3 : ¬ ∃ y, [toSide A.toAttr 1 v, toSide A.toAttr 1 w] = [y] ∧
        A.mass y.specie ≤ totalMass A.toAttr [toSide A.toAttr (-1) u] := by
      rintro ⟨y, hy, -⟩
      simp at hy
    by_cases c2 : A.mass u.specie ≤ A.mass v.specie + A.mass w.specie
    · rw [if_pos (Or.inl ⟨rfl, c2⟩)]
      simp only [Except.ok.injEq, reduceCtorEq, false_iff, not_and]
      intro _ h; linarith
    · rw [if_neg (by rintro (⟨-, h⟩ | h); exacts [c2 h, c3 h])]
      simp only [Except.ok.injEq, Option.some.injEq, c1, true_and, not_le.mp c2]
      have : sortItems A.toAttr ([] : List (Item S)) = [] := rfl
      rw [this]
      exact eq_comm

theorem pass_one (u v w : Item S) (hs : ∀ x ∈ [u, v, w], x.side = -1 ∨ x.side = 1) (r : List (Item S)) :
    reactionOf A.toAttr [u, v, w] 1 = .ok (some r) ↔ CanLead A u ∧ A.mass u.specie + A.mass v.specie < A.mass w.specie ∧
      r = [toSide A.toAttr (-1) u, toSide A.toAttr (-1) v, toSide A.toAttr 1 w] := by
  obtain ⟨h, L, R, e1, e2, -, -, -, e3⟩ := reactionOf_eq A.toAttr [u, v, w] 1 (by simp) hs
  simp only [List.take_succ_cons, List.take_zero, List.map_cons, List.map_nil, List.cons.injEq] at e1
  simp only [List.drop_succ_cons, List.drop_zero, List.map_cons, List.map_nil] at e2
  obtain ⟨rfl, rfl⟩ := e1
  rw [e3, ← toSide_anti A u (hs u (by simp))]
  subst e2
  have m : totalMass A.toAttr [toSide A.toAttr (-1) u, toSide A.toAttr (-1) v] = A.mass u.specie + A.mass v.specie := by
    simp [totalMass, toSide_specie]
  rw [m]
  by_cases c1 : (toSide A.toAttr (-1) u).antiparticle = true
  · rw [if_pos c1]
    simp [c1]
  · rw [if_neg c1]
    rw [Bool.not_eq_true] at c1
    by_cases c2 : A.mass w.specie ≤ A.mass u.specie + A.mass v.specie
    · rw [if_pos (Or.inr ⟨_, rfl, by rw [toSide_specie]; exact c2⟩)]
      simp only [Except.ok.injEq, reduceCtorEq, false_iff, not_and]
      intro _ h; linarith
    · rw [if_neg]
      · simp only [Except.ok.injEq, Option.some.injEq, c1, true_and, not_le.mp c2]
        have s1 : ∀ z : Item S, sortItems A.toAttr [z] = [z] := fun z => rfl
        rw [s1, s1]
        exact eq_comm
      · rintro (⟨h, -⟩ | ⟨y, hy, h⟩)
        · simp at h
        · simp only [List.cons.injEq, and_true] at hy
          subst hy
          rw [toSide_specie] at h
          exact c2 h

/-- The generated reactions: one for each leg that can lead. -/
theorem channels3 (hinj : Function.Injective A.name) (d : Decl S) (h0 : d.left.length = d.antiL.length)
    (h1 : d.right.length = d.antiR.length) (P X Y : Item S) (hp : (legs d.left d.right d.antiL d.antiR).Perm [P, X, Y])
    (hX : 0 ≤ A.mass X.specie) (hY : 0 ≤ A.mass Y.specie) (hopen : A.mass X.specie + A.mass Y.specie < A.mass P.specie) :
    open Classical in
    ∃ rs, reactionsMap A.toAttr d.left d.right d.antiL d.antiR = .ok rs ∧
      rs.Perm (([P, X, Y].filter fun o => CanLead A o).map (channelOf A P X Y)) := by
  classical
  obtain ⟨rs, r1, r2, r3⟩ := reactionsMap_mem A.toAttr d.left d.right d.antiL d.antiR h0 h1
  have hidx := (hp.map (·.index)).nodup_iff.mp (legs_nodup_index d h0 h1)
  simp only [List.map_cons, List.map_nil, List.nodup_cons, List.mem_cons, List.not_mem_nil, or_false, not_or,
    not_false_eq_true, List.nodup_nil, and_true] at hidx
  obtain ⟨⟨i1, i2⟩, i3⟩ := hidx
  have n1 : X ≠ P := fun h => i1 (by rw [h])
  have n2 : Y ≠ P := fun h => i2 (by rw [h])
  have n3 : Y ≠ X := fun h => i3 (by rw [h])
  have cP : channelOf A P X Y P = toSide A.toAttr (-1) P :: sortItems A.toAttr [toSide A.toAttr 1 X, toSide A.toAttr 1 Y] := by
    unfold channelOf; rw [if_pos rfl]
  have cX : channelOf A P X Y X = [toSide A.toAttr (-1) X, toSide A.toAttr (-1) Y, toSide A.toAttr 1 P] := by
    unfold channelOf; rw [if_neg n1, if_pos rfl]
  have cY : channelOf A P X Y Y = [toSide A.toAttr (-1) Y, toSide A.toAttr (-1) X, toSide A.toAttr 1 P] := by
    unfold channelOf; rw [if_neg n2, if_neg n3]
  have hs : ∀ x ∈ [P, X, Y], x.side = -1 ∨ x.side = 1 := fun x hx => legs_side _ _ _ _ x (hp.mem_iff.mpr hx)
  have sP := hs P (by simp)
  have sX := hs X (by simp)
  have sY := hs Y (by simp)
  have hsort : sortItems A.toAttr [toSide A.toAttr 1 Y, toSide A.toAttr 1 X] =
      sortItems A.toAttr [toSide A.toAttr 1 X, toSide A.toAttr 1 Y] :=
    sortItems_congr A hinj _ _ 1 (by
      intro x hx
      simp only [List.mem_cons, List.not_mem_nil, or_false] at hx
      rcases hx with rfl | rfl
      · exact toSide_side _ _ _ sY (Or.inr rfl)
      · exact toSide_side _ _ _ sX (Or.inr rfl)) (List.Perm.swap _ _ _)
  have side3 : ∀ u v w : Item S, u.side = -1 ∨ u.side = 1 → v.side = -1 ∨ v.side = 1 → w.side = -1 ∨ w.side = 1 →
      ∀ x ∈ [u, v, w], x.side = -1 ∨ x.side = 1 := by
    intro u v w hu hv hw x hx
    simp only [List.mem_cons, List.not_mem_nil, or_false] at hx
    rcases hx with rfl | rfl | rfl <;> assumption
  refine ⟨rs, r1, (List.perm_ext_iff_of_nodup r2 ?_).mpr ?_⟩
  · refine List.Nodup.map_on ?_ ?_
    · intro o ho o' ho' e
      have hi : ∀ z ∈ [P, X, Y], ((channelOf A P X Y z).head?.map (·.index)) = some z.index := by
        intro z hz
        simp only [List.mem_cons, List.not_mem_nil, or_false] at hz
        rcases hz with rfl | rfl | rfl
        · rw [cP]; simp [toSide_index]
        · rw [cX]; simp [toSide_index]
        · rw [cY]; simp [toSide_index]
      have k1 := hi o (List.mem_of_mem_filter ho)
      have k2 := hi o' (List.mem_of_mem_filter ho')
      rw [e, k2] at k1
      have k := Option.some.inj k1
      have m1 := List.mem_of_mem_filter ho
      have m2 := List.mem_of_mem_filter ho'
      simp only [List.mem_cons, List.not_mem_nil, or_false] at m1 m2
      rcases m1 with rfl | rfl | rfl <;> rcases m2 with rfl | rfl | rfl <;> first | rfl | exact absurd k.symm (by assumption) | exact absurd k (by assumption)
    · refine List.Nodup.filter _ ?_
      simp only [List.nodup_cons, List.mem_cons, List.not_mem_nil, or_false, not_or, not_false_eq_true, List.nodup_nil,
        and_true]
      exact ⟨⟨n1.symm, n2.symm⟩, n3.symm⟩
  · intro r
    rw [r3 r]
    have key : (∃ s i, s.Perm (legs d.left d.right d.antiL d.antiR) ∧ i + 1 < s.length ∧
        reactionOf A.toAttr s i = .ok (some r)) ↔ (CanLead A P ∧ r = channelOf A P X Y P) ∨
        (CanLead A X ∧ r = channelOf A P X Y X) ∨ (CanLead A Y ∧ r = channelOf A P X Y Y) := by
      rw [cP, cX, cY]
      constructor
      · rintro ⟨s, i, hsp, hi, hr⟩
        have hmem : s ∈ [P, X, Y].permutations := List.mem_permutations.mpr (hsp.trans hp)
        have hi2 : i = 0 ∨ i = 1 := by
          rw [(hsp.trans hp).length_eq] at hi
          simp only [List.length_cons, List.length_nil] at hi
          omega
        have hmem' : s = [P, X, Y] ∨ s = [X, P, Y] ∨ s = [Y, X, P] ∨ s = [X, Y, P] ∨ s = [Y, P, X] ∨ s = [P, Y, X] := by
          simpa [List.permutations, List.permutationsAux, List.permutationsAux.rec, List.permutationsAux2] using hmem
        rcases hmem' with rfl | rfl | rfl | rfl | rfl | rfl <;> rcases hi2 with rfl | rfl
        all_goals first
          | (rw [pass_zero A _ _ _ (side3 _ _ _ (by assumption) (by assumption) (by assumption))] at hr)
          | (rw [pass_one A _ _ _ (side3 _ _ _ (by assumption) (by assumption) (by assumption))] at hr)
        all_goals obtain ⟨k1, k2, k3⟩ := hr
        all_goals first
          | (exfalso; linarith)
          | exact Or.inl ⟨k1, k3⟩
          | exact Or.inl ⟨k1, by rw [k3, hsort]⟩
          | exact Or.inr (Or.inl ⟨k1, k3⟩)
          | exact Or.inr (Or.inr ⟨k1, k3⟩)
      · rintro (⟨k1, k2⟩ | ⟨k1, k2⟩ | ⟨k1, k2⟩)
        · exact ⟨[P, X, Y], 0, hp.symm, by simp, (pass_zero A _ _ _ (side3 _ _ _ sP sX sY) _).mpr ⟨k1, hopen, k2⟩⟩
        · exact ⟨[X, Y, P], 1, by
            refine List.Perm.trans ?_ hp.symm
            exact (List.perm_append_comm (l₁ := [X, Y]) (l₂ := [P])), by simp, (pass_one A _ _ _ (side3 _ _ _ sX sY sP) _).mpr ⟨k1, hopen, k2⟩⟩
        · exact ⟨[Y, X, P], 1, by
            refine List.Perm.trans ?_ hp.symm
            exact ((List.perm_append_comm (l₁ := [Y, X]) (l₂ := [P]))).trans ((List.Perm.swap X Y []).cons P), by simp,
              (pass_one A _ _ _ (side3 _ _ _ sY sX sP) _).mpr ⟨k1, by linarith, k2⟩⟩
    rw [key]
    simp only [List.mem_map, List.mem_filter, List.mem_cons, List.not_mem_nil, or_false, decide_eq_true_eq]
    constructor
    · rintro (⟨k1, k2⟩ | ⟨k1, k2⟩ | ⟨k1, k2⟩)
      · exact ⟨P, ⟨Or.inl rfl, k1⟩, k2.symm⟩
      · exact ⟨X, ⟨Or.inr (Or.inl rfl), k1⟩, k2.symm⟩
      · exact ⟨Y, ⟨Or.inr (Or.inr rfl), k1⟩, k2.symm⟩
    · rintro ⟨o, ⟨rfl | rfl | rfl, k1⟩, k2⟩
      · exact Or.inl ⟨k1, k2.symm⟩
      · exact Or.inr (Or.inl ⟨k1, k2.symm⟩)
      · exact Or.inr (Or.inr ⟨k1, k2.symm⟩)

/-! ## The integrals -/

theorem perm_map_of {α β : Type*} (f : α → β) (rs : List β) (L : List α) (h : rs.Perm (L.map f)) :
    ∃ L' : List α, L'.Perm L ∧ rs = L'.map f := by
  have hf : List.Forall₂ (fun b a => b = f a) (L.map f) L := by
    rw [List.forall₂_map_left_iff]
    exact List.forall₂_same.mpr fun _ _ => rfl
  obtain ⟨L', h1, h2⟩ := List.perm_comp_forall₂ h hf
  refine ⟨L', h2, ?_⟩
  clear h2 h hf
  induction h1 with
  | nil => rfl
  | cons h _ ih => rw [List.map_cons, ← ih, h]

/-- Leading legs give their integrals. -/
theorem init_all (Ks : List ℝ) (ch : Item S → List (Item S)) (L : List (Item S))
    (h : ∀ o ∈ L, ∃ x t, ch o = x :: t ∧ x.side = -1 ∧ x.antiparticle = false ∧ x.specie = o.specie)
    (acc : List (Integral3 S)) :
    (L.map ch).foldlM (initIntegral3 Ks) acc = .ok (acc ++ L.map fun o => ⟨o.specie, ch o, Ks⟩) := by
  induction L generalizing acc with
  | nil => simp; rfl
  | cons o L ih =>
    obtain ⟨x, t, e1, e2, e3, e4⟩ := h o (List.mem_cons_self ..)
    have step : initIntegral3 Ks acc (ch o) = .ok (acc ++ [⟨o.specie, ch o, Ks⟩]) := by
      unfold initIntegral3
      rw [e1, List.filter_cons_of_pos (by simp [e2])]
      dsimp only
      rw [e3, e4]
      rfl
    rw [List.map_cons, List.foldlM_cons, step]
    change (L.map ch).foldlM (initIntegral3 Ks) (acc ++ [⟨o.specie, ch o, Ks⟩]) = _
    rw [ih (fun o' ho' => h o' (List.mem_cons_of_mem _ ho'))]
    simp

theorem dedupAppend3_new (acc : List (Integral3 S)) (n : Integral3 S) (h : ∀ o ∈ acc, o.particle ≠ n.particle) :
    dedupAppend3 acc n = .ok (acc ++ [n]) := by
  induction acc with
  | nil => rfl
  | cons o os ih =>
    unfold dedupAppend3
    have : similar3 n o = false := by
      unfold similar3
      rw [decide_eq_false (fun e => h o (List.mem_cons_self ..) e.symm)]
      rfl
    rw [this, ih fun o' ho' => h o' (List.mem_cons_of_mem _ ho')]
    rfl

theorem dedup3_distinct (l acc : List (Integral3 S)) (h : ((acc ++ l).map (·.particle)).Nodup) :
    l.foldlM dedupAppend3 acc = .ok (acc ++ l) := by
  induction l generalizing acc with
  | nil => simp; rfl
  | cons n l ih =>
    rw [List.foldlM_cons, dedupAppend3_new]
    · change l.foldlM dedupAppend3 (acc ++ [n]) = _
      rw [ih]
      · simp
      · simpa using h
    · intro o ho e
      rw [List.map_append, List.nodup_append] at h
      exact h.2.2 _ (List.mem_map_of_mem ho) _ (List.mem_map_of_mem (List.mem_cons_self ..)) e

theorem channel_head (P X Y o : Item S) (ho : o ∈ [P, X, Y]) (hs : ∀ x ∈ [P, X, Y], x.side = -1 ∨ x.side = 1)
    (hl : CanLead A o) : ∃ x t, channelOf A P X Y o = x :: t ∧ x.side = -1 ∧ x.antiparticle = false ∧ x.specie = o.specie := by
  have g : ∃ t, channelOf A P X Y o = toSide A.toAttr (-1) o :: t := by
    unfold channelOf
    split_ifs with c1 c2
    · exact ⟨_, by rw [c1]⟩
    · exact ⟨_, by rw [c2]⟩
    · simp only [List.mem_cons, List.not_mem_nil, or_false] at ho
      rcases ho with h | h | h
      · exact absurd h c1
      · exact absurd h c2
      · exact ⟨_, by rw [h]⟩
  obtain ⟨t, ht⟩ := g
  exact ⟨_, t, ht, toSide_side _ _ _ (hs o ho) (Or.inl rfl), (toSide_anti A o (hs o ho)).mpr hl, toSide_specie A _ _⟩

/-- **C127 (which integrals).** A declaration of three legs, one of which, `P`, is heavier than the other two together (on
whichever side it is declared): if the legs that can lead have different species, the generated integrals are exactly one for
each of these legs: the decay for `P`, the inverse reaction for a product, with the declared matrix element. -/
theorem C127_generated (hinj : Function.Injective A.name) (d : Decl S) (h0 : d.left.length = d.antiL.length)
    (h1 : d.right.length = d.antiR.length) (P X Y : Item S) (hp : (legs d.left d.right d.antiL d.antiR).Perm [P, X, Y])
    (hX : 0 ≤ A.mass X.specie) (hY : 0 ≤ A.mass Y.specie) (hopen : A.mass X.specie + A.mass Y.specie < A.mass P.specie)
    (Ks : List ℝ) :
    open Classical in
    (([P, X, Y].filter fun o => CanLead A o).map (·.specie)).Nodup →
    ∃ l, crossGenerating3 A.toAttr d.left d.right d.antiL d.antiR Ks = .ok l ∧
      l.Perm (([P, X, Y].filter fun o => CanLead A o).map fun o => ⟨o.specie, channelOf A P X Y o, Ks⟩) := by
  classical
  intro hnd
  have hs : ∀ x ∈ [P, X, Y], x.side = -1 ∨ x.side = 1 := fun x hx => legs_side _ _ _ _ x (hp.mem_iff.mpr hx)
  obtain ⟨rs, r1, r2⟩ := channels3 A hinj d h0 h1 P X Y hp hX hY hopen
  obtain ⟨L, hL, rfl⟩ := perm_map_of _ _ _ r2
  refine ⟨L.map fun o => ⟨o.specie, channelOf A P X Y o, Ks⟩, ?_, hL.map _⟩
  unfold crossGenerating3
  rw [r1]
  change Except.bind (List.foldlM (initIntegral3 Ks) [] (L.map (channelOf A P X Y))) _ = _
  rw [init_all Ks (channelOf A P X Y) L (fun o ho => by
    have := hL.mem_iff.mp ho
    rw [List.mem_filter] at this
    exact channel_head A P X Y o this.1 hs (by simpa using this.2))]
  change List.foldlM dedupAppend3 [] _ = _
  rw [dedup3_distinct _ []]
  · rfl
  · rw [List.nil_append, List.nil_append, List.map_map]
    exact (hL.map _).nodup_iff.mpr hnd

/-- **C127 (two legs of one species).** If both products are legs of the same species that can lead, their integrals are
merged into one, whose matrix element is doubled. -/
theorem C127_merged (hinj : Function.Injective A.name) (d : Decl S) (h0 : d.left.length = d.antiL.length)
    (h1 : d.right.length = d.antiR.length) (P X Y : Item S) (hp : (legs d.left d.right d.antiL d.antiR).Perm [P, X, Y])
    (hX : 0 ≤ A.mass X.specie) (hopen : A.mass X.specie + A.mass Y.specie < A.mass P.specie)
    (hXY : Y.specie = X.specie) (lP : CanLead A P) (lX : CanLead A X) (lY : CanLead A Y) (K : ℝ) (hK : K ≠ 0) :
    ∃ l o, crossGenerating3 A.toAttr d.left d.right d.antiL d.antiR [K] = .ok l ∧ (o = X ∨ o = Y) ∧
      l.Perm [⟨P.specie, channelOf A P X Y P, [K]⟩, ⟨X.specie, channelOf A P X Y o, [K + K]⟩] := by
  classical
  have hs : ∀ x ∈ [P, X, Y], x.side = -1 ∨ x.side = 1 := fun x hx => legs_side _ _ _ _ x (hp.mem_iff.mpr hx)
  have hne : P.specie ≠ X.specie := by
    intro e
    rw [e, hXY] at hopen
    linarith
  obtain ⟨rs, r1, r2⟩ := channels3 A hinj d h0 h1 P X Y hp hX (by rw [hXY]; exact hX) hopen
  have hf : ([P, X, Y].filter fun o => CanLead A o) = [P, X, Y] := by
    refine List.filter_eq_self.mpr ?_
    simp [lP, lX, lY]
  rw [hf] at r2
  obtain ⟨L, hL, rfl⟩ := perm_map_of _ _ _ r2
  have hidx := (hp.map (·.index)).nodup_iff.mp (legs_nodup_index d h0 h1)
  simp only [List.map_cons, List.map_nil, List.nodup_cons, List.mem_cons, List.not_mem_nil, or_false, not_or,
    not_false_eq_true, List.nodup_nil, and_true] at hidx
  obtain ⟨⟨i1, i2⟩, i3⟩ := hidx
  have n1 : X ≠ P := fun h => i1 (by rw [h])
  have n2 : Y ≠ P := fun h => i2 (by rw [h])
  have n3 : Y ≠ X := fun h => i3 (by rw [h])
  have cX : channelOf A P X Y X = [toSide A.toAttr (-1) X, toSide A.toAttr (-1) Y, toSide A.toAttr 1 P] := by
    unfold channelOf; rw [if_neg n1, if_pos rfl]
  have cY : channelOf A P X Y Y = [toSide A.toAttr (-1) Y, toSide A.toAttr (-1) X, toSide A.toAttr 1 P] := by
    unfold channelOf; rw [if_neg n2, if_neg n3]
  have sX := toSide_side A.toAttr (-1) X (hs X (by simp)) (Or.inl rfl)
  have sY := toSide_side A.toAttr (-1) Y (hs Y (by simp)) (Or.inl rfl)
  have sP := toSide_side A.toAttr 1 P (hs P (by simp)) (Or.inr rfl)
  have on : ∀ o, (o = X ∨ o = Y) → speciesOn (-1) (channelOf A P X Y o) = [X.specie, X.specie] ∧
      speciesOn 1 (channelOf A P X Y o) = [P.specie] := by
    rintro o (rfl | rfl)
    · rw [cX]
      simp [speciesOn, sX, sY, sP, toSide_specie, hXY]
    · rw [cY]
      simp [speciesOn, sX, sY, sP, toSide_specie, hXY]
  have sim : ∀ o o' (k : List ℝ), (o = X ∨ o = Y) → (o' = X ∨ o' = Y) →
      similar3 (⟨X.specie, channelOf A P X Y o, [K]⟩ : Integral3 S) ⟨X.specie, channelOf A P X Y o', k⟩ = true := by
    intro o o' k ho ho'
    unfold similar3
    dsimp only
    rw [(on o ho).1, (on o ho).2, (on o' ho').1, (on o' ho').2, decide_eq_true rfl,
      List.isPerm_iff.mpr (List.Perm.refl _), List.isPerm_iff.mpr (List.Perm.refl _)]
    rfl
  have dif : ∀ i j : Integral3 S, i.particle ≠ j.particle → similar3 i j = false := by
    intro i j h
    unfold similar3
    rw [decide_eq_false h]
    rfl
  have hm : mergeMs3 [K] [K] = .ok [K + K] := by
    unfold mergeMs3
    rw [List.foldlM_cons]
    have : mergeStep3 ([K], []) K = .ok ([K + K], []) := by
      unfold mergeStep3 absorb3
      dsimp only
      rw [if_pos hK]
      rfl
    rw [this]
    rfl
  set iP : Integral3 S := ⟨P.specie, channelOf A P X Y P, [K]⟩ with hiP
  have single : ∀ i : Integral3 S, dedupAppend3 [] i = .ok [i] := fun i => rfl
  have merge : ∀ o o' rest, (o = X ∨ o = Y) → (o' = X ∨ o' = Y) →
      dedupAppend3 ((⟨X.specie, channelOf A P X Y o, [K]⟩ : Integral3 S) :: rest) ⟨X.specie, channelOf A P X Y o', [K]⟩ =
        .ok (⟨X.specie, channelOf A P X Y o, [K + K]⟩ :: rest) := by
    intro o o' rest ho ho'
    unfold dedupAppend3
    rw [if_pos (sim o' o [K] ho' ho), hm]
    rfl
  have skip : ∀ (i j : Integral3 S) (rest l : List (Integral3 S)), i.particle ≠ j.particle → dedupAppend3 rest j = .ok l → dedupAppend3 (i :: rest) j = .ok (i :: l) := by
    intro i j rest l h hl
    rw [dedupAppend3, if_neg (by rw [dif j i h.symm]; simp), hl]
    rfl
  have key : ∀ o o', (o = X ∨ o = Y) → (o' = X ∨ o' = Y) →
      [iP, ⟨X.specie, channelOf A P X Y o, [K]⟩, ⟨X.specie, channelOf A P X Y o', [K]⟩].foldlM dedupAppend3 [] =
        .ok [iP, ⟨X.specie, channelOf A P X Y o, [K + K]⟩] ∧
      [⟨X.specie, channelOf A P X Y o, [K]⟩, iP, ⟨X.specie, channelOf A P X Y o', [K]⟩].foldlM dedupAppend3 [] =
        .ok [⟨X.specie, channelOf A P X Y o, [K + K]⟩, iP] ∧
      [⟨X.specie, channelOf A P X Y o, [K]⟩, ⟨X.specie, channelOf A P X Y o', [K]⟩, iP].foldlM dedupAppend3 [] =
        .ok [⟨X.specie, channelOf A P X Y o, [K + K]⟩, iP] := by
    intro o o' ho ho'
    have b : ∀ (x : List (Integral3 S)) (f : List (Integral3 S) → Except Err (List (Integral3 S))),
        Bind.bind (Except.ok x : Except Err _) f = f x := fun _ _ => rfl
    refine ⟨?_, ?_, ?_⟩
    · rw [List.foldlM_cons, single, b, List.foldlM_cons, skip iP _ [] _ hne (single _), b, List.foldlM_cons,
        skip iP _ _ _ hne (merge o o' [] ho ho'), b]
      rfl
    · rw [List.foldlM_cons, single, b, List.foldlM_cons, skip _ iP [] _ hne.symm (single _), b, List.foldlM_cons,
        merge o o' _ ho ho', b]
      rfl
    · rw [List.foldlM_cons, single, b, List.foldlM_cons, merge o o' _ ho ho', b, List.foldlM_cons,
        skip _ iP [] _ hne.symm (single _), b]
      rfl
  have hL' : L = [P, X, Y] ∨ L = [X, P, Y] ∨ L = [Y, X, P] ∨ L = [X, Y, P] ∨ L = [Y, P, X] ∨ L = [P, Y, X] := by
    simpa [List.permutations, List.permutationsAux, List.permutationsAux.rec, List.permutationsAux2] using
      List.mem_permutations.mpr hL
  have run : crossGenerating3 A.toAttr d.left d.right d.antiL d.antiR [K] =
      (L.map fun o => (⟨o.specie, channelOf A P X Y o, [K]⟩ : Integral3 S)).foldlM dedupAppend3 [] := by
    unfold crossGenerating3
    rw [r1]
    change Except.bind (List.foldlM (initIntegral3 [K]) [] (L.map (channelOf A P X Y))) _ = _
    rw [init_all [K] (channelOf A P X Y) L (fun o ho => channel_head A P X Y o (hL.mem_iff.mp ho) hs (by
      have := hL.mem_iff.mp ho
      simp only [List.mem_cons, List.not_mem_nil, or_false] at this
      rcases this with rfl | rfl | rfl <;> assumption))]
    rfl
  rw [run]
  rcases hL' with rfl | rfl | rfl | rfl | rfl | rfl <;> simp only [List.map_cons, List.map_nil, hXY]
  · exact ⟨_, X, (key X Y (Or.inl rfl) (Or.inr rfl)).1, Or.inl rfl, List.Perm.refl _⟩
  · exact ⟨_, X, (key X Y (Or.inl rfl) (Or.inr rfl)).2.1, Or.inl rfl, List.Perm.swap _ _ _⟩
  · exact ⟨_, Y, (key Y X (Or.inr rfl) (Or.inl rfl)).2.2, Or.inr rfl, List.Perm.swap _ _ _⟩
  · exact ⟨_, X, (key X Y (Or.inl rfl) (Or.inr rfl)).2.2, Or.inl rfl, List.Perm.swap _ _ _⟩
  · exact ⟨_, Y, (key Y X (Or.inr rfl) (Or.inl rfl)).2.1, Or.inr rfl, List.Perm.swap _ _ _⟩
  · exact ⟨_, Y, (key Y X (Or.inr rfl) (Or.inl rfl)).1, Or.inr rfl, List.Perm.refl _⟩

end
end PyBBN
