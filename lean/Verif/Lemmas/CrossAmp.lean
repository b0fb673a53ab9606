import Verif.Model.Handover
import Verif.Props.TermsSM
import Verif.Lemmas.Events
import Mathlib.Data.Fintype.Perm
import Mathlib.Algebra.BigOperators.Fin
/-!
# Linear functionals of the matrix elements of the generated integrals
-/
namespace PyBBN

set_option linter.unusedSectionVars false

/-- A linear functional of a list of matrix elements. -/
noncomputable def linAmp (a b : Ord4 → ℝ) (l : List M4) : ℝ := (l.map fun x => x.K1 * a x.order + x.K2 * b x.order).sum

theorem linAmp_cons (a b : Ord4 → ℝ) (x : M4) (l : List M4) :
    linAmp a b (x :: l) = x.K1 * a x.order + x.K2 * b x.order + linAmp a b l := rfl

theorem linAmp_append (a b : Ord4 → ℝ) (l l' : List M4) : linAmp a b (l ++ l') = linAmp a b l + linAmp a b l' := by
  simp [linAmp]

theorem absorb_lin (a b : Ord4 → ℝ) (ha : ∀ o : Ord4, a ⟨o.c, o.d, o.a, o.b⟩ = a o) (os : List M4) (n : M4)
    (hK : ∀ o ∈ os, o.K = 0) : ∀ os', absorb os n = some os' →
      (∀ o ∈ os', o.K = 0) ∧ linAmp a b os' = linAmp a b os + (n.K1 * a n.order + n.K2 * b n.order) := by
  induction os with
  | nil => intro os' h; simp [absorb] at h
  | cons o os ih =>
    intro os' h
    have h0 : o.K = 0 := hK o (List.mem_cons_self ..)
    have hK' : ∀ o ∈ os, o.K = 0 := fun o ho => hK o (List.mem_cons_of_mem _ ho)
    unfold absorb at h
    rw [if_neg (by simpa using h0)] at h
    by_cases hs : o.stackable n = true
    · rw [if_pos hs] at h
      obtain rfl := Option.some.inj h
      constructor
      · intro x hx
        rcases List.mem_cons.mp hx with rfl | hx
        · exact h0
        · exact hK' x hx
      · unfold M4.stackable at hs
        rw [decide_eq_true_eq] at hs
        rw [linAmp_cons, linAmp_cons]
        change (o.K1 + n.K1) * a o.order + (o.K2 + n.K2) * b o.order + _ = _
        rcases hs with hs | ⟨h1, h2, h3⟩
        · rw [hs]; ring
        · rw [← h1, ha, h2, h3]; ring
    · rw [if_neg hs] at h
      cases hq : absorb os n with
      | none => rw [hq] at h; simp at h
      | some q =>
        rw [hq] at h
        obtain rfl := Option.some.inj h
        obtain ⟨i1, i2⟩ := ih hK' q hq
        constructor
        · intro x hx
          rcases List.mem_cons.mp hx with rfl | hx
          · exact h0
          · exact i1 x hx
        · rw [linAmp_cons, linAmp_cons, i2]; ring

theorem mergeMs_lin (a b : Ord4 → ℝ) (ha : ∀ o : Ord4, a ⟨o.c, o.d, o.a, o.b⟩ = a o) (old new : List M4)
    (h1 : ∀ x ∈ old, x.K = 0) (h2 : ∀ x ∈ new, x.K = 0) :
    (∀ x ∈ mergeMs old new, x.K = 0) ∧ linAmp a b (mergeMs old new) = linAmp a b old + linAmp a b new := by
  have gen : ∀ (new : List M4) (st : List M4 × List M4), (∀ x ∈ new, x.K = 0) → (∀ x ∈ st.1, x.K = 0) →
      (∀ x ∈ st.2, x.K = 0) →
      (∀ x ∈ (new.foldl mergeStep st).1, x.K = 0) ∧
      (∀ x ∈ (new.foldl mergeStep st).2, x.K = 0) ∧
      linAmp a b (new.foldl mergeStep st).1 +
      linAmp a b (new.foldl mergeStep st).2 = linAmp a b st.1 + linAmp a b st.2 + linAmp a b new := by
    intro new
    induction new with
    | nil => intro st _ h1 h2; exact ⟨h1, h2, by simp [linAmp]⟩
    | cons n new ih =>
      intro st hn hs1 hs2
      have hn0 : n.K = 0 := hn n (List.mem_cons_self ..)
      rw [List.foldl_cons]
      cases hq : absorb st.1 n with
      | some o =>
        have hstep : mergeStep st n = (o, st.2) := by unfold mergeStep; rw [hq]
        rw [hstep]
        obtain ⟨a1, a2⟩ := absorb_lin a b ha st.1 n hs1 o hq
        obtain ⟨b1, b2, b3⟩ := ih (o, st.2) (fun x hx => hn x (List.mem_cons_of_mem _ hx)) a1 hs2
        refine ⟨b1, b2, ?_⟩
        rw [b3]
        dsimp only
        rw [a2, linAmp_cons]
        ring
      | none =>
        have hstep : mergeStep st n = (st.1, st.2 ++ [n]) := by unfold mergeStep; rw [hq]
        rw [hstep]
        obtain ⟨b1, b2, b3⟩ := ih (st.1, st.2 ++ [n]) (fun x hx => hn x (List.mem_cons_of_mem _ hx)) hs1
          (by
            intro x hx
            rcases List.mem_append.mp hx with hx | hx
            · exact hs2 x hx
            · rw [List.mem_singleton.mp hx]; exact hn0)
        refine ⟨b1, b2, ?_⟩
        rw [b3]
        dsimp only
        rw [linAmp_append, linAmp_cons, linAmp_cons]
        simp only [linAmp, List.map_nil, List.sum_nil]
        ring
  obtain ⟨g1, g2, g3⟩ := gen new (old, []) h2 h1 (by simp)
  unfold mergeMs
  refine ⟨?_, ?_⟩
  · intro x hx
    rcases List.mem_append.mp hx with hx | hx
    · exact g1 x hx
    · exact g2 x hx
  · dsimp only
    rw [linAmp_append, g3]
    simp [linAmp]

section
variable {S : Type*} [DecidableEq S]

/-- The species of a reaction, side by side. -/
def sideKey (r : List (Item S)) : List S × List S := (speciesOn (-1) r, speciesOn 1 r)

/-- A functional of the matrix elements that may depend on the species. -/
noncomputable def totalAmp (a b : List S × List S → Ord4 → ℝ) (l : List (Integral4 S)) : ℝ :=
  (l.map fun i => linAmp (a (sideKey i.reaction)) (b (sideKey i.reaction)) i.Ms).sum

theorem totalAmp_cons (a b : List S × List S → Ord4 → ℝ) (i : Integral4 S) (l : List (Integral4 S)) :
    totalAmp a b (i :: l) = linAmp (a (sideKey i.reaction)) (b (sideKey i.reaction)) i.Ms + totalAmp a b l := rfl

theorem totalAmp_append (a b : List S × List S → Ord4 → ℝ) (l l' : List (Integral4 S)) :
    totalAmp a b (l ++ l') = totalAmp a b l + totalAmp a b l' := by
  simp [totalAmp]

/-- Merging does not change the functional. -/
theorem totalAmp_dedup (a b : List S × List S → Ord4 → ℝ) (ha : ∀ k (o : Ord4), a k ⟨o.c, o.d, o.a, o.b⟩ = a k o)
    (l : List (Integral4 S)) (hK : ∀ i ∈ l, ∀ x ∈ i.Ms, x.K = 0)
    (hkey : ∀ i ∈ l, ∀ j ∈ l, SameKey i j → sideKey i.reaction = sideKey j.reaction) :
    totalAmp a b (dedup l) = totalAmp a b l ∧ (∀ i ∈ dedup l, ∃ j ∈ l, i.particle = j.particle ∧ i.reaction = j.reaction) ∧
      ∀ i ∈ dedup l, ∀ x ∈ i.Ms, x.K = 0 := by
  have one : ∀ (acc : List (Integral4 S)) (n : Integral4 S), n ∈ l →
      (∀ i ∈ acc, ∃ j ∈ l, i.particle = j.particle ∧ i.reaction = j.reaction) → (∀ i ∈ acc, ∀ x ∈ i.Ms, x.K = 0) →
      totalAmp a b (dedupAppend acc n) = totalAmp a b acc +
        linAmp (a (sideKey n.reaction)) (b (sideKey n.reaction)) n.Ms ∧
      (∀ i ∈ dedupAppend acc n, ∃ j ∈ l, i.particle = j.particle ∧ i.reaction = j.reaction) ∧
      (∀ i ∈ dedupAppend acc n, ∀ x ∈ i.Ms, x.K = 0) := by
    intro acc n hn
    induction acc with
    | nil =>
      intro _ _
      unfold dedupAppend
      refine ⟨by simp [totalAmp], ?_, ?_⟩
      · intro i hi
        rw [List.mem_singleton.mp hi]
        exact ⟨n, hn, rfl, rfl⟩
      · intro i hi
        rw [List.mem_singleton.mp hi]
        exact hK n hn
    | cons o acc ih =>
      intro hw hz
      obtain ⟨i1, i2, i3⟩ := ih (fun i hi => hw i (List.mem_cons_of_mem _ hi)) fun i hi => hz i (List.mem_cons_of_mem _ hi)
      unfold dedupAppend
      by_cases h : similar n o = true
      · rw [if_pos h]
        have hk := (similar_iff n o).mp h
        obtain ⟨j, hj, e1, e2⟩ := hw o (List.mem_cons_self ..)
        have hk' : SameKey n j := ⟨hk.1.trans e1, by rw [← e2]; exact hk.2.1, by rw [← e2]; exact hk.2.2⟩
        have ek : sideKey n.reaction = sideKey o.reaction := by rw [hkey n hn j hj hk', e2]
        obtain ⟨m1, m2⟩ := mergeMs_lin (a (sideKey o.reaction)) (b (sideKey o.reaction)) (ha _) o.Ms n.Ms
          (hz o (List.mem_cons_self ..)) (hK n hn)
        refine ⟨?_, ?_, ?_⟩
        · rw [totalAmp_cons, totalAmp_cons]
          change linAmp (a (sideKey o.reaction)) (b (sideKey o.reaction)) (mergeMs o.Ms n.Ms) + _ = _
          rw [m2, ek]; ring
        · intro i hi
          rcases List.mem_cons.mp hi with rfl | hi
          · exact ⟨j, hj, e1, e2⟩
          · exact hw i (List.mem_cons_of_mem _ hi)
        · intro i hi
          rcases List.mem_cons.mp hi with rfl | hi
          · exact m1
          · exact hz i (List.mem_cons_of_mem _ hi)
      · rw [if_neg h]
        refine ⟨?_, ?_, ?_⟩
        · rw [totalAmp_cons, totalAmp_cons, i1]; ring
        · intro i hi
          rcases List.mem_cons.mp hi with rfl | hi
          · exact hw _ (List.mem_cons_self ..)
          · exact i2 i hi
        · intro i hi
          rcases List.mem_cons.mp hi with rfl | hi
          · exact hz _ (List.mem_cons_self ..)
          · exact i3 i hi
  have gen : ∀ (l' acc : List (Integral4 S)), (∀ i ∈ l', i ∈ l) →
      (∀ i ∈ acc, ∃ j ∈ l, i.particle = j.particle ∧ i.reaction = j.reaction) → (∀ i ∈ acc, ∀ x ∈ i.Ms, x.K = 0) →
      totalAmp a b (l'.foldl dedupAppend acc) = totalAmp a b acc + totalAmp a b l' ∧
      (∀ i ∈ l'.foldl dedupAppend acc, ∃ j ∈ l, i.particle = j.particle ∧ i.reaction = j.reaction) ∧
      (∀ i ∈ l'.foldl dedupAppend acc, ∀ x ∈ i.Ms, x.K = 0) := by
    intro l'
    induction l' with
    | nil => intro acc _ h1 h2; exact ⟨by simp [totalAmp], h1, h2⟩
    | cons n l' ih =>
      intro acc hl h1 h2
      obtain ⟨q1, q2, q3⟩ := one acc n (hl n (List.mem_cons_self ..)) h1 h2
      obtain ⟨p1, p2, p3⟩ := ih (dedupAppend acc n) (fun i hi => hl i (List.mem_cons_of_mem _ hi)) q2 q3
      rw [List.foldl_cons]
      refine ⟨?_, p2, p3⟩
      rw [p1, q1, totalAmp_cons]; ring
  obtain ⟨g1, g2, g3⟩ := gen l [] (fun _ h => h) (by simp) (by simp)
  refine ⟨?_, g2, g3⟩
  unfold dedup
  rw [g1]; simp [totalAmp]

theorem sameKey_sides (A : Attr S) (hinj : Function.Injective A.name) (i j : Integral4 S)
    (hi : WellFormed A i.reaction) (hj : WellFormed A j.reaction)
    (pi : (i.reaction.map (·.specie)).head? = some i.particle)
    (pj : (j.reaction.map (·.specie)).head? = some j.particle) (h : SameKey i j) :
    sideKey i.reaction = sideKey j.reaction := by
  have e := C44_same_positions A hinj i j hi hj pi pj h
  have k1 := (speciesOn_perm (-1) i.reaction j.reaction).mpr h.2.1
  rw [List.isPerm_iff] at k1
  obtain ⟨h1, t1, R1, e1, l1, r1, -⟩ := hi
  obtain ⟨h2, t2, R2, e2, l2, r2, -⟩ := hj
  obtain ⟨f1, f1'⟩ := filter_sides (h1 :: t1) R1 l1 r1
  obtain ⟨f2, f2'⟩ := filter_sides (h2 :: t2) R2 l2 r2
  unfold sideKey
  unfold speciesOn at k1 ⊢
  rw [e1, e2] at k1 e ⊢
  rw [f1, f2] at k1 ⊢
  rw [f1', f2']
  rw [List.map_append, List.map_append] at e
  obtain ⟨q1, q2⟩ := List.append_inj e k1.length_eq
  rw [q1, q2]

end

/-! ## Crossings with two particles on each side -/

section
variable {S : Type*} [DecidableEq S] (A : LibAttr S)

/-- The legs of a declaration `p 0 + p 1 → p 2 + p 3`. -/
def leg4 (p : Fin 4 → S) (a : Fin 4 → Bool) : Fin 4 → Item S := fun j => ⟨evSide j, p j, a j, j, false⟩

theorem legs_leg4 (p : Fin 4 → S) (a : Fin 4 → Bool) :
    legs [p 0, p 1] [p 2, p 3] [a 0, a 1] [a 2, a 3] = List.ofFn (leg4 p a) := rfl

theorem leg4_inj (p : Fin 4 → S) (a : Fin 4 → Bool) : Function.Injective (leg4 p a) := by
  intro i j h
  have := congrArg Item.index h
  exact Fin.ext this

theorem leg4_side (p : Fin 4 → S) (a : Fin 4 → Bool) (j : Fin 4) : (leg4 p a j).side = -1 ∨ (leg4 p a j).side = 1 := by
  change evSide j = -1 ∨ evSide j = 1
  fin_cases j <;> decide

theorem ofFn_leg4_nodup (p : Fin 4 → S) (a : Fin 4 → Bool) : (List.ofFn (leg4 p a)).Nodup :=
  List.nodup_ofFn.mpr (leg4_inj p a)

theorem sort_pair (x y : Item S) : sortItems A.toAttr [x, y] = [x, y] ∨ sortItems A.toAttr [x, y] = [y, x] := by
  have h := sortItems_perm A.toAttr [x, y]
  have hl := h.length_eq
  match hs : sortItems A.toAttr [x, y], hl with
  | [u, v], _ =>
    rw [hs] at h
    have hu : u = x ∨ u = y := by simpa using h.subset (List.mem_cons_self ..)
    rcases hu with rfl | rfl
    · left
      rw [List.perm_cons] at h
      rw [List.singleton_perm_singleton.mp h]
    · right
      have h' := h.trans (List.Perm.swap _ _ _)
      rw [List.perm_cons] at h'
      rw [List.singleton_perm_singleton.mp h']

/-- The crossing with legs `j` and `k` on the left. -/
theorem cross_two (p : Fin 4 → S) (a : Fin 4 → Bool) (j k : Fin 4) (hjk : j ≠ k) :
    (leg4 p a j, [leg4 p a k]) ∈ choices (List.ofFn (leg4 p a)) ∧
    ∃ π : Equiv.Perm (Fin 4), π 0 = j ∧ π 1 = k ∧ crossWith A (List.ofFn (leg4 p a)) (leg4 p a j, [leg4 p a k]) =
      List.ofFn fun t => toSide A.toAttr (evSide t) (leg4 p a (π t)) := by
  have hmem : ∀ i, leg4 p a i ∈ List.ofFn (leg4 p a) := fun i => List.mem_ofFn.mpr ⟨i, rfl⟩
  have hnd := ofFn_leg4_nodup p a
  have hx : (leg4 p a j, [leg4 p a k]) ∈ choices (List.ofFn (leg4 p a)) := by
    rw [mem_choices]
    refine ⟨hmem j, List.singleton_sublist.mpr ?_⟩
    exact (List.mem_erase_of_ne fun h => hjk (leg4_inj p a h).symm).mpr (hmem k)
  refine ⟨hx, ?_⟩
  have hp := choice_perm _ hnd _ hx
  have hl := hp.length_eq
  rw [List.length_ofFn] at hl
  unfold crossWith
  match hs : otherLegs (List.ofFn (leg4 p a)) (leg4 p a j, [leg4 p a k]), hl with
  | [u, v], _ =>
    rw [hs] at hp
    have fin : ∀ u v : Item S, [leg4 p a j, leg4 p a k, u, v].Perm (List.ofFn (leg4 p a)) →
        ∃ π : Equiv.Perm (Fin 4), π 0 = j ∧ π 1 = k ∧
          [toSide A.toAttr (-1) (leg4 p a j), toSide A.toAttr (-1) (leg4 p a k), toSide A.toAttr 1 u, toSide A.toAttr 1 v] =
            List.ofFn fun t => toSide A.toAttr (evSide t) (leg4 p a (π t)) := by
      intro u v hp
      obtain ⟨c, rfl⟩ := List.mem_ofFn.mp (hp.subset (by simp : u ∈ _))
      obtain ⟨e, rfl⟩ := List.mem_ofFn.mp (hp.subset (by simp : v ∈ _))
      have hn : [leg4 p a j, leg4 p a k, leg4 p a c, leg4 p a e].Nodup := hp.nodup_iff.mpr hnd
      have hn' : [j, k, c, e].Nodup := List.Nodup.of_map (leg4 p a) hn
      have hinj : Function.Injective (![j, k, c, e] : Fin 4 → Fin 4) := by
        rw [← List.nodup_ofFn]
        exact hn'
      refine ⟨Equiv.ofBijective _ (Finite.injective_iff_bijective.mp hinj), rfl, rfl, rfl⟩
    have s1 : sortItems A.toAttr [toSide A.toAttr (-1) (leg4 p a k)] = [toSide A.toAttr (-1) (leg4 p a k)] :=
      List.perm_singleton.mp (sortItems_perm A.toAttr _)
    simp only [List.map_cons, List.map_nil]
    rw [s1]
    rcases sort_pair A (toSide A.toAttr 1 u) (toSide A.toAttr 1 v) with h | h
    · rw [h]
      exact fin u v hp
    · rw [h]
      exact fin v u ((((List.Perm.swap u v []).cons _).cons _).trans hp)

/-! ## Sums over the choices -/

theorem sum_sublists_nil {α : Type*} (g : List α → ℝ) (hg : ∀ T, T ≠ [] → g T = 0) (l : List α) :
    (l.sublists'.map g).sum = g [] := by
  induction l with
  | nil => simp
  | cons x l ih =>
    rw [List.sublists'_cons, List.map_append, List.sum_append, ih, List.map_map]
    have : ((l.sublists').map (g ∘ List.cons x)).sum = 0 := by
      apply List.sum_eq_zero
      intro y hy
      obtain ⟨T, -, rfl⟩ := List.mem_map.mp hy
      exact hg _ (List.cons_ne_nil _ _)
    rw [this, add_zero]

theorem sum_sublists_one {α : Type*} (g : List α → ℝ) (hg : ∀ T, T.length ≠ 1 → g T = 0) (l : List α) :
    (l.sublists'.map g).sum = (l.map fun x => g [x]).sum := by
  induction l with
  | nil => simp [hg]
  | cons x l ih =>
    rw [List.sublists'_cons, List.map_append, List.sum_append, ih, List.map_map,
      sum_sublists_nil (g ∘ List.cons x) ?_ l, List.map_cons, List.sum_cons, add_comm]
    · rfl
    · intro T hT
      apply hg
      rw [List.length_cons]
      have := List.length_pos_iff.mpr hT
      omega

/-- A function on the choices that counts two particles on each side only. -/
theorem sum_choices (p : Fin 4 → S) (a : Fin 4 → Bool) (H : Item S × List (Item S) → ℝ)
    (hH : ∀ x, x.2.length ≠ 1 → H x = 0) :
    ((choices (List.ofFn (leg4 p a))).map H).sum =
      ∑ j, ∑ k, if j ≠ k then H (leg4 p a j, [leg4 p a k]) else 0 := by
  unfold choices
  rw [List.map_flatMap, List.flatMap_def, List.sum_flatten, List.map_map, List.map_ofFn, List.sum_ofFn]
  apply Finset.sum_congr rfl
  intro j _
  have e : (List.map H (List.map (fun T => (leg4 p a j, T)) ((List.ofFn (leg4 p a)).erase (leg4 p a j)).sublists)).sum =
      (((List.ofFn (leg4 p a)).erase (leg4 p a j)).map fun y => H (leg4 p a j, [y])).sum := by
    rw [List.map_map, ((List.sublists_perm_sublists' _).map _).sum_eq]
    exact sum_sublists_one (H ∘ fun T => (leg4 p a j, T)) (fun T hT => hH _ hT) _
  change (List.map H (List.map (fun T => (leg4 p a j, T)) ((List.ofFn (leg4 p a)).erase (leg4 p a j)).sublists)).sum = _
  rw [e]
  have h := List.sum_map_erase (fun y => H (leg4 p a j, [y])) (List.mem_ofFn.mpr ⟨j, rfl⟩ : leg4 p a j ∈ List.ofFn (leg4 p a))
  rw [List.map_ofFn, List.sum_ofFn] at h
  have : ∑ k, (if j ≠ k then H (leg4 p a j, [leg4 p a k]) else 0) =
      (∑ k, H (leg4 p a j, [leg4 p a k])) - H (leg4 p a j, [leg4 p a j]) := by
    rw [← Finset.add_sum_erase Finset.univ (fun k => H (leg4 p a j, [leg4 p a k])) (Finset.mem_univ j), add_sub_cancel_left,
      ← Finset.add_sum_erase Finset.univ _ (Finset.mem_univ j), if_neg (by simp), zero_add]
    apply Finset.sum_congr rfl
    intro k hk
    rw [if_pos (Finset.ne_of_mem_erase hk).symm]
  rw [this]
  change _ = ∑ k, H (leg4 p a j, [leg4 p a k]) at h
  linarith

end

/-! ## Matrix elements of a crossing -/

section
variable {S : Type*} [DecidableEq S] (A : LibAttr S)

theorem fin4_val (i : Fin 4) : fin4 (i : ℕ) = i := by
  unfold fin4
  exact Fin.ofNat_val_eq_self i

theorem posOf_ofFn (ρ : Fin 4 → Item S) (π : Equiv.Perm (Fin 4)) (hπ : ∀ t, (ρ t).index = (π t : ℕ)) (l : Fin 4) :
    posOf (List.ofFn ρ) (l : ℕ) = .ok ((π.symm l : Fin 4) : ℕ) := by
  obtain ⟨j, x, h1, h2, h3⟩ := posOf_spec (List.ofFn ρ) (l : ℕ) (by
    rw [List.map_ofFn]
    exact List.mem_ofFn.mpr ⟨π.symm l, by simp [hπ]⟩)
  rw [h1]
  congr 1
  have hj : j < 4 := by
    have := (List.getElem?_eq_some_iff.mp h2).1
    simpa using this
  have hx : ρ ⟨j, hj⟩ = x := by
    have := (List.getElem?_eq_some_iff.mp h2).2
    rw [List.getElem_ofFn] at this
    exact this
  have : π ⟨j, hj⟩ = l := Fin.ext (by rw [← hπ, hx, h3])
  rw [← this, π.symm_apply_apply]

theorem relabel_ofFn (ρ : Fin 4 → Item S) (π : Equiv.Perm (Fin 4)) (hπ : ∀ t, (ρ t).index = (π t : ℕ)) (x : M4)
    (ω : Fin 4 → Fin 4) (hx : x.order = ⟨ω 0, ω 1, ω 2, ω 3⟩) :
    relabel (List.ofFn ρ) x = .ok { x with
      order := normOrder ⟨(π.symm (ω 0) : Fin 4), (π.symm (ω 1) : Fin 4), (π.symm (ω 2) : Fin 4), (π.symm (ω 3) : Fin 4)⟩,
      K2 := if xor (ρ (π.symm (ω 0))).crossed (ρ (π.symm (ω 1))).crossed then x.K2 * (-1) else x.K2 } := by
  unfold relabel
  have g : ∀ t : Fin 4, (List.ofFn ρ)[(t : ℕ)]? = some (ρ t) := by
    intro t
    rw [List.getElem?_ofFn]
    simp
  rw [hx]
  simp only [posOf_ofFn ρ π hπ, bind, Except.bind]
  unfold M4.applyOrder
  simp only [g]

end

/-! ## The kernel fed into one position of an event -/

section
variable {S : Type*} [DecidableEq S] (A : LibAttr S)

/-- A function of a pairing `(i j)(k l)` that does not depend on the order within the pairs. -/
structure PairFn (α : Fin 4 → Fin 4 → Fin 4 → Fin 4 → ℝ) : Prop where
  first : ∀ i j k l, α j i k l = α i j k l
  second : ∀ i j k l, α i j l k = α i j k l

/-- Contributions to position `i` of the event `θ`. -/
noncomputable def evAmp (θ : Fin 4 → S) (i : Fin 4) (α : Fin 4 → Fin 4 → Fin 4 → Fin 4 → ℝ) :
    List S × List S → Ord4 → ℝ
  | ([s0, s1], [s2, s3]), o => ∑ g : Equiv.Perm (Fin 4), if g i = 0 ∧ g (mate i) = 1 ∧ ![s0, s1, s2, s3] ∘ g = θ then
      α (g.symm (fin4 o.a)) (g.symm (fin4 o.b)) (g.symm (fin4 o.c)) (g.symm (fin4 o.d)) else 0
  | _, _ => 0

theorem evAmp_norm (θ : Fin 4 → S) (i : Fin 4) {α : Fin 4 → Fin 4 → Fin 4 → Fin 4 → ℝ} (hα : PairFn α)
    (k : List S × List S) (o : Ord4) : evAmp θ i α k (normOrder o) = evAmp θ i α k o := by
  unfold evAmp
  split
  · apply Finset.sum_congr rfl
    intro g _
    congr 1
    unfold normOrder
    dsimp only
    rcases le_total o.a o.b with h | h <;> rcases le_total o.c o.d with h' | h'
    · rw [min_eq_left h, max_eq_right h, min_eq_left h', max_eq_right h']
    · rw [min_eq_left h, max_eq_right h, min_eq_right h', max_eq_left h', hα.second]
    · rw [min_eq_right h, max_eq_left h, min_eq_left h', max_eq_right h', hα.first]
    · rw [min_eq_right h, max_eq_left h, min_eq_right h', max_eq_left h', hα.first, hα.second]
  · rfl

theorem evAmp_swap (θ : Fin 4 → S) (i : Fin 4) {α : Fin 4 → Fin 4 → Fin 4 → Fin 4 → ℝ}
    (hα : ∀ i j k l, α k l i j = α i j k l) (k : List S × List S) (o : Ord4) :
    evAmp θ i α k ⟨o.c, o.d, o.a, o.b⟩ = evAmp θ i α k o := by
  unfold evAmp
  split
  · apply Finset.sum_congr rfl
    intro g _
    congr 1
    exact hα _ _ _ _
  · rfl

/-- Whether the mass term of an element changes sign between the declaration and an event in which leg `γ i` takes
position `i`. -/
def flips (x : M4) (γ : Equiv.Perm (Fin 4)) : Bool :=
  xor (decide (evSide (fin4 x.order.a) = evSide (fin4 x.order.b)))
    (decide (evSide (γ.symm (fin4 x.order.a)) = evSide (γ.symm (fin4 x.order.b))))

/-- Amplitude of the event in which leg `γ i` takes position `i`. -/
noncomputable def eventAmp (α β : Fin 4 → Fin 4 → Fin 4 → Fin 4 → ℝ) (Ms : List M4) (γ : Equiv.Perm (Fin 4)) : ℝ :=
  (Ms.map fun x => x.K1 * α (γ.symm (fin4 x.order.a)) (γ.symm (fin4 x.order.b)) (γ.symm (fin4 x.order.c))
      (γ.symm (fin4 x.order.d)) +
    (if flips x γ then x.K2 * (-1) else x.K2) * β (γ.symm (fin4 x.order.a)) (γ.symm (fin4 x.order.b))
      (γ.symm (fin4 x.order.c)) (γ.symm (fin4 x.order.d))).sum

theorem evSide_values (i : Fin 4) : evSide i = -1 ∨ evSide i = 1 := by fin_cases i <;> decide

theorem toSide_crossed (k : ℤ) (p : Fin 4 → S) (a : Fin 4 → Bool) (j : Fin 4) :
    (toSide A.toAttr k (leg4 p a j)).crossed = decide (evSide j ≠ k) := by
  unfold toSide
  change (if evSide j = k then leg4 p a j else crossParticle A.toAttr (leg4 p a j)).crossed = _
  by_cases h : evSide j = k
  · rw [if_pos h]; simp [h, leg4]
  · rw [if_neg h]; simp [h, leg4, crossParticle]

theorem sideKey_ofFn (p : Fin 4 → S) (a : Fin 4 → Bool) (π : Equiv.Perm (Fin 4)) :
    sideKey (List.ofFn fun t => toSide A.toAttr (evSide t) (leg4 p a (π t))) =
      ([p (π 0), p (π 1)], [p (π 2), p (π 3)]) := by
  have hs : ∀ t, (toSide A.toAttr (evSide t) (leg4 p a (π t))).side = evSide t := fun t =>
    toSide_side A.toAttr _ _ (leg4_side p a _) (evSide_values t)
  have e : (List.ofFn fun t => toSide A.toAttr (evSide t) (leg4 p a (π t))) =
      [toSide A.toAttr (evSide 0) (leg4 p a (π 0)), toSide A.toAttr (evSide 1) (leg4 p a (π 1))] ++
      [toSide A.toAttr (evSide 2) (leg4 p a (π 2)), toSide A.toAttr (evSide 3) (leg4 p a (π 3))] := rfl
  obtain ⟨f1, f2⟩ := filter_sides
    [toSide A.toAttr (evSide 0) (leg4 p a (π 0)), toSide A.toAttr (evSide 1) (leg4 p a (π 1))]
    [toSide A.toAttr (evSide 2) (leg4 p a (π 2)), toSide A.toAttr (evSide 3) (leg4 p a (π 3))]
    (by
      intro x hx
      simp only [List.mem_cons, List.not_mem_nil, or_false] at hx
      rcases hx with rfl | rfl
      · exact hs 0
      · exact hs 1)
    (by
      intro x hx
      simp only [List.mem_cons, List.not_mem_nil, or_false] at hx
      rcases hx with rfl | rfl
      · exact hs 2
      · exact hs 3)
  unfold sideKey speciesOn
  rw [e, f1, f2]
  simp only [List.map_cons, List.map_nil, toSide_specie]
  rfl

theorem xor_sides (a b c d a' b' : ℤ) (s : ℤ) (ha : a = -1 ∨ a = 1) (hb : b = -1 ∨ b = 1) (hc : c = -1 ∨ c = 1)
    (hd : d = -1 ∨ d = 1) (hs : s = -1 ∨ s = 1) (h1 : a' = s * c) (h2 : b' = s * d) :
    xor (decide (a ≠ a')) (decide (b ≠ b')) = xor (decide (a = b)) (decide (c = d)) := by
  subst h1 h2
  rcases ha with rfl | rfl <;> rcases hb with rfl | rfl <;> rcases hc with rfl | rfl <;> rcases hd with rfl | rfl <;>
    rcases hs with rfl | rfl <;> decide

/-- The contribution of one crossing. -/
theorem reaction_amp (θ : Fin 4 → S) (i : Fin 4) {α β : Fin 4 → Fin 4 → Fin 4 → Fin 4 → ℝ} (hα : PairFn α) (hβ : PairFn β)
    (p : Fin 4 → S) (a : Fin 4 → Bool) (π : Equiv.Perm (Fin 4)) (Ms ys : List M4)
    (hM : ∀ x ∈ Ms, ∃ ω : Fin 4 → Fin 4, x.order = ⟨ω 0, ω 1, ω 2, ω 3⟩)
    (hy : List.Forall₂ (fun x y => relabel (List.ofFn fun t => toSide A.toAttr (evSide t) (leg4 p a (π t))) x = .ok y) Ms ys) :
    linAmp (evAmp θ i α (sideKey (List.ofFn fun t => toSide A.toAttr (evSide t) (leg4 p a (π t)))))
      (evAmp θ i β (sideKey (List.ofFn fun t => toSide A.toAttr (evSide t) (leg4 p a (π t))))) ys =
    ∑ γ : Equiv.Perm (Fin 4), if γ i = π 0 ∧ γ (mate i) = π 1 ∧ p ∘ γ = θ then eventAmp α β Ms γ else 0 := by
  rw [sideKey_ofFn]
  induction hy with
  | nil => simp [linAmp, eventAmp]
  | @cons x y Ms ys hxy _ ih =>
    have ih := ih fun z hz => hM z (List.mem_cons_of_mem _ hz)
    obtain ⟨ω, hω⟩ := hM x (List.mem_cons_self ..)
    rw [relabel_ofFn (fun t => toSide A.toAttr (evSide t) (leg4 p a (π t))) π (fun t => by rw [toSide_index]; rfl) x ω hω] at hxy
    obtain rfl := Except.ok.inj hxy
    rw [linAmp_cons, ih]
    dsimp only
    rw [evAmp_norm θ i hα, evAmp_norm θ i hβ]
    unfold evAmp
    dsimp only
    have e : ∀ γ, eventAmp α β (x :: Ms) γ = (x.K1 * α (γ.symm (fin4 x.order.a)) (γ.symm (fin4 x.order.b))
        (γ.symm (fin4 x.order.c)) (γ.symm (fin4 x.order.d)) + (if flips x γ then x.K2 * (-1) else x.K2) *
        β (γ.symm (fin4 x.order.a)) (γ.symm (fin4 x.order.b))
        (γ.symm (fin4 x.order.c)) (γ.symm (fin4 x.order.d))) + eventAmp α β Ms γ := fun γ => rfl
    have sp : ∀ γ : Equiv.Perm (Fin 4), (if γ i = π 0 ∧ γ (mate i) = π 1 ∧ p ∘ γ = θ then eventAmp α β (x :: Ms) γ else 0) =
        (if γ i = π 0 ∧ γ (mate i) = π 1 ∧ p ∘ γ = θ then (x.K1 * α (γ.symm (fin4 x.order.a)) (γ.symm (fin4 x.order.b))
          (γ.symm (fin4 x.order.c)) (γ.symm (fin4 x.order.d)) + (if flips x γ then x.K2 * (-1) else x.K2) *
          β (γ.symm (fin4 x.order.a)) (γ.symm (fin4 x.order.b))
          (γ.symm (fin4 x.order.c)) (γ.symm (fin4 x.order.d))) else 0) +
        (if γ i = π 0 ∧ γ (mate i) = π 1 ∧ p ∘ γ = θ then eventAmp α β Ms γ else 0) := by
      intro γ
      rw [e]
      split_ifs <;> ring
    refine Eq.trans ?_ ((Finset.sum_congr rfl fun γ _ => sp γ).trans Finset.sum_add_distrib).symm
    congr 1
    rw [Finset.mul_sum, Finset.mul_sum, ← Finset.sum_add_distrib]
    refine Fintype.sum_equiv (Equiv.mulLeft π) _ _ fun g => ?_
    have hc : (g i = 0 ∧ g (mate i) = 1 ∧ ![p (π 0), p (π 1), p (π 2), p (π 3)] ∘ g = θ) ↔
        ((Equiv.mulLeft π) g i = π 0 ∧ (Equiv.mulLeft π) g (mate i) = π 1 ∧ p ∘ ((Equiv.mulLeft π) g) = θ) := by
      have e1 : (![p (π 0), p (π 1), p (π 2), p (π 3)] : Fin 4 → S) ∘ g = p ∘ ((Equiv.mulLeft π) g) := by
        funext t
        change (![p (π 0), p (π 1), p (π 2), p (π 3)] : Fin 4 → S) (g t) = p (π (g t))
        generalize g t = u
        fin_cases u <;> rfl
      rw [e1]
      have e2 : ∀ s t, (Equiv.mulLeft π) g s = π t ↔ g s = t := fun s t => π.injective.eq_iff
      rw [e2, e2]
    by_cases h : g i = 0 ∧ g (mate i) = 1 ∧ ![p (π 0), p (π 1), p (π 2), p (π 3)] ∘ g = θ
    · rw [if_pos h, if_pos h, if_pos (hc.mp h), hω]
      have inv : ∀ u, ((Equiv.mulLeft π) g).symm u = g.symm (π.symm u) := fun u => rfl
      simp only [fin4_val, inv]
      congr 2
      have hg := ((mate_at g i).mpr ⟨h.1, h.2.1⟩).1
      have hv := mate_view g hg
      have : xor (toSide A.toAttr (evSide (π.symm (ω 0))) (leg4 p a (π (π.symm (ω 0))))).crossed
          (toSide A.toAttr (evSide (π.symm (ω 1))) (leg4 p a (π (π.symm (ω 1))))).crossed = flips x ((Equiv.mulLeft π) g) := by
        rw [toSide_crossed, toSide_crossed, π.apply_symm_apply, π.apply_symm_apply]
        unfold flips
        rw [hω]
        simp only [fin4_val, inv]
        exact xor_sides _ _ _ _ _ _ (-evSide (g.symm 0)) (evSide_values _) (evSide_values _) (evSide_values _)
          (evSide_values _) (by rcases evSide_values (g.symm 0) with h | h <;> rw [h] <;> decide) (hv _) (hv _)
      rw [this]
    · rw [if_neg h, if_neg h, if_neg (fun h' => h (hc.mpr h')), mul_zero, mul_zero, add_zero]

end

section
variable {S : Type*} [DecidableEq S] (A : LibAttr S)

/-- The declaration with two legs on each side. -/
def decl4 (p : Fin 4 → S) (a : Fin 4 → Bool) (Ms : List M4) : Decl S :=
  ⟨[p 0, p 1], [p 2, p 3], [a 0, a 1], [a 2, a 3], .four Ms⟩

theorem mate_ne : ∀ i, mate i ≠ i := by decide

theorem sum_pair_if (H : Fin 4 → Fin 4 → ℝ) (j0 k0 : Fin 4) :
    ∑ j, ∑ k, (if j0 = j ∧ k0 = k then H j k else 0) = H j0 k0 := by
  rw [Finset.sum_eq_single j0, Finset.sum_eq_single k0]
  · simp
  · intro b _ hb; rw [if_neg fun h => hb h.2.symm]
  · intro h; exact absurd (Finset.mem_univ _) h
  · intro b _ hb; exact Finset.sum_eq_zero fun k _ => if_neg fun h => hb h.1.symm
  · intro h; exact absurd (Finset.mem_univ _) h

theorem relabel_K (r : List (Item S)) (x y : M4) (h : relabel r x = .ok y) : y.K = x.K := by
  unfold relabel at h
  simp only [bind, Except.bind] at h
  repeat (split at h; · cases h)
  unfold M4.applyOrder at h
  split at h
  · cases h; rfl
  · cases h

theorem forall2_right {α β : Type*} {R : α → β → Prop} {l : List α} {l' : List β} (h : List.Forall₂ R l l') :
    ∀ y ∈ l', ∃ x ∈ l, R x y := by
  induction h with
  | nil => simp
  | cons h _ ih =>
    intro y hy
    rcases List.mem_cons.mp hy with rfl | hy
    · exact ⟨_, List.mem_cons_self .., h⟩
    · obtain ⟨x, hx, hr⟩ := ih y hy
      exact ⟨x, List.mem_cons_of_mem _ hx, hr⟩

/-- The total contribution of the integrals generated from a declaration to one position of an event. -/
theorem generated_amp (hinj : Function.Injective A.name) (hmaj : ∀ s, A.majorana s = false) (θ : Fin 4 → S) (i : Fin 4)
    {α β : Fin 4 → Fin 4 → Fin 4 → Fin 4 → ℝ} (hα : PairFn α) (hβ : PairFn β) (hsw : ∀ i j k l, α k l i j = α i j k l)
    (p : Fin 4 → S) (a : Fin 4 → Bool) (Ms : List M4)
    (hM : ∀ x ∈ Ms, x.K = 0 ∧ [x.order.a, x.order.b, x.order.c, x.order.d].Perm (List.range 4)) (out : List (Integral4 S))
    (hout : crossGenerating A.toAttr [p 0, p 1] [p 2, p 3] [a 0, a 1] [a 2, a 3] Ms = .ok out) :
    totalAmp (evAmp θ i α) (evAmp θ i β) out =
      ∑ γ : Equiv.Perm (Fin 4), if leads (leg4 p a (γ i)) = true ∧ p ∘ γ = θ then eventAmp α β Ms γ else 0 := by
  classical
  obtain ⟨rs, ints, out', g1, g2, -, g3, g4, -⟩ := generated_ints A.toAttr [p 0, p 1] [p 2, p 3] [a 0, a 1] [a 2, a 3]
    rfl rfl Ms hM
  obtain rfl : out' = out := Except.ok.inj (g2.symm.trans hout)
  have hω : ∀ x ∈ Ms, ∃ ω : Fin 4 → Fin 4, x.order = ⟨ω 0, ω 1, ω 2, ω 3⟩ := by
    intro x hx
    have h4 : ∀ n ∈ [x.order.a, x.order.b, x.order.c, x.order.d], n < 4 := fun n hn =>
      List.mem_range.mp ((hM x hx).2.mem_iff.mp hn)
    simp only [List.mem_cons, List.not_mem_nil, or_false, forall_eq_or_imp, forall_eq] at h4
    exact ⟨![⟨_, h4.1⟩, ⟨_, h4.2.1⟩, ⟨_, h4.2.2.1⟩, ⟨_, h4.2.2.2⟩], rfl⟩
  -- the elements of an integral are determined by its reaction
  set rl : List (Item S) → List M4 := fun r => Ms.map fun x => match relabel r x with | .ok y => y | .error _ => x with hrl
  set W : List (Item S) → ℝ := fun r => linAmp (evAmp θ i α (sideKey r)) (evAmp θ i β (sideKey r)) (rl r) with hW
  have hrlF : ∀ r (ys : List M4), List.Forall₂ (fun x y => relabel r x = .ok y) Ms ys → ys = rl r := by
    intro r ys h
    rw [hrl]
    clear_value rl W
    clear hM hω g3 g2 hout hW hrl
    induction h with
    | nil => rfl
    | cons h _ ih => dsimp only at ih ⊢; rw [List.map_cons, h, ← ih]
  have hmemWF : ∀ r ∈ rs, WellFormed A.toAttr r := by
    obtain ⟨rs', c1, -, c3⟩ := C42_exactly_the_crossings A.toAttr hinj [p 0, p 1] [p 2, p 3] [a 0, a 1] [a 2, a 3] rfl rfl
    obtain rfl : rs' = rs := Except.ok.inj (c1.symm.trans g1)
    exact fun r hr => ((c3 r).mp hr).2
  have hints : totalAmp (evAmp θ i α) (evAmp θ i β) ints = (rs.map W).sum ∧
      (∀ n ∈ ints, n.reaction ∈ rs ∧ (n.reaction.map (·.specie)).head? = some n.particle ∧ ∀ x ∈ n.Ms, x.K = 0) := by
    have hK : ∀ x ∈ Ms, x.K = 0 := fun x hx => (hM x hx).1
    clear g1 g4 hmemWF g2 hout
    induction g3 with
    | nil => exact ⟨rfl, by simp⟩
    | @cons r n rs ints h _ ih =>
      obtain ⟨e1, e2, e3⟩ := h
      refine ⟨?_, ?_⟩
      · rw [totalAmp_cons, ih.1, List.map_cons, List.sum_cons, e1]
        congr 1
        rw [hW]
        dsimp only
        rw [← hrlF r _ e3]
      · intro m hm
        rcases List.mem_cons.mp hm with rfl | hm
        · refine ⟨by rw [e1]; exact List.mem_cons_self .., by rw [e1, List.head?_map]; exact e2, ?_⟩
          intro y hy
          obtain ⟨x, hx, hxy⟩ := forall2_right e3 y hy
          rw [relabel_K r x y hxy, hK x hx]
        · obtain ⟨q1, q2⟩ := ih.2 m hm
          exact ⟨List.mem_cons_of_mem _ q1, q2⟩
  rw [g4, (totalAmp_dedup _ _ (fun k o => evAmp_swap θ i hsw k o) ints (fun n hn => (hints.2 n hn).2.2) (fun n hn m hm hk =>
    sameKey_sides A.toAttr hinj n m (hmemWF _ (hints.2 n hn).1) (hmemWF _ (hints.2 m hm).1) (hints.2 n hn).2.1
      (hints.2 m hm).2.1 hk)).1, hints.1]
  have hperm := crossings_perm A hinj (decl4 p a Ms) rfl rfl rs g1
  have hls : legs (decl4 p a Ms).left (decl4 p a Ms).right (decl4 p a Ms).antiL (decl4 p a Ms).antiR = List.ofFn (leg4 p a) := rfl
  rw [hls] at hperm
  dsimp only at hperm
  set ls := List.ofFn (leg4 p a) with hlsd
  have hside : ∀ x ∈ ls, x.side = -1 ∨ x.side = 1 := by
    intro x hx
    obtain ⟨j, rfl⟩ := List.mem_ofFn.mp hx
    exact leg4_side p a j
  have hnd : ls.Nodup := ofFn_leg4_nodup p a
  set H : Item S × List (Item S) → ℝ := fun x => if x.2.length = 1 ∧ leads x.1 = true then W (crossWith A ls x) else 0 with hHd
  have e1 : (rs.map W).sum = ((choices ls).map H).sum := by
    rw [(hperm.map W).sum_eq, List.map_map]
    have : ∀ L : List (Item S × List (Item S)), (∀ x ∈ L, x ∈ choices ls) →
        ((L.filter fun x => Opens A ls x).map (W ∘ crossWith A ls)).sum = (L.map H).sum := by
      intro L hL
      induction L with
      | nil => rfl
      | cons x L ih =>
        have ih := ih fun y hy => hL y (List.mem_cons_of_mem _ hy)
        have hx := hL x (List.mem_cons_self ..)
        have hlen := (choice_perm ls hnd x hx).length_eq
        have h4 : ls.length = 4 := by rw [hlsd]; simp
        have hz : x.2.length ≠ 1 → W (crossWith A ls x) = 0 := by
          intro h
          have hsp := (crossWith_species A ls hside x hx).1.length_eq
          have : ∀ γ o, evAmp θ i γ (sideKey (crossWith A ls x)) o = 0 := by
            intro γ o
            have hl : (sideKey (crossWith A ls x)).1.length ≠ 2 := by
              change (speciesOn (-1) (crossWith A ls x)).length ≠ 2
              rw [hsp]
              simpa using h
            generalize sideKey (crossWith A ls x) = k at hl
            unfold evAmp
            split
            · simp at hl
            · rfl
          rw [hW]
          dsimp only
          unfold linAmp
          apply List.sum_eq_zero
          intro y hy
          obtain ⟨z, -, rfl⟩ := List.mem_map.mp hy
          rw [this, this]; ring
        rw [List.map_cons, List.sum_cons]
        by_cases h1 : x.2.length = 1
        · have hop : Opens A ls x ↔ leads x.1 = true := by
            rw [leads_iff A x.1 (hmaj _)]
            constructor
            · exact fun h => h.1
            · intro h
              have h2 : (otherLegs ls x).length = 2 := by
                rw [h4] at hlen
                simp only [List.length_cons, List.length_append] at hlen
                omega
              refine ⟨h, ?_, ?_, ?_⟩
              · intro h0; rw [h0] at h2; simp at h2
              · intro h0; rw [h0] at h1; simp at h1
              · intro y h0; rw [h0] at h2; simp at h2
          by_cases hl : leads x.1 = true
          · rw [List.filter_cons_of_pos (by simpa using hop.mpr hl), List.map_cons, List.sum_cons, ih, hHd]
            dsimp only
            rw [if_pos ⟨h1, hl⟩]; rfl
          · rw [List.filter_cons_of_neg (by simpa using fun h => hl (hop.mp h)), ih, hHd]
            dsimp only
            rw [if_neg (fun h => hl h.2), zero_add]
        · have h0 : H x = 0 := by rw [hHd]; dsimp only; rw [if_neg fun h => h1 h.1]
          rw [h0, zero_add]
          by_cases hl : Opens A ls x
          · rw [List.filter_cons_of_pos (by simpa using hl), List.map_cons, List.sum_cons, ih, Function.comp_apply, hz h1,
              zero_add]
          · rw [List.filter_cons_of_neg (by simpa using hl), ih]
    exact this _ fun x hx => hx
  rw [e1, hlsd, sum_choices p a H (fun x hx => by rw [hHd]; dsimp only; rw [if_neg fun h => hx h.1])]
  have e2 : ∀ j k : Fin 4, (if j ≠ k then H (leg4 p a j, [leg4 p a k]) else 0) =
      ∑ γ : Equiv.Perm (Fin 4), if γ i = j ∧ γ (mate i) = k then
        (if leads (leg4 p a j) = true ∧ p ∘ γ = θ then eventAmp α β Ms γ else 0) else 0 := by
    intro j k
    by_cases hjk : j = k
    · rw [if_neg (not_not.mpr hjk)]
      symm
      apply Finset.sum_eq_zero
      intro γ _
      rw [if_neg]
      rintro ⟨h1, h2⟩
      exact mate_ne i (γ.injective (h2.trans (hjk.symm.trans h1.symm)))
    · rw [if_pos hjk, hHd]
      dsimp only
      by_cases hl : leads (leg4 p a j) = true
      · rw [if_pos ⟨rfl, hl⟩]
        obtain ⟨hx, π, h0, h1, hc⟩ := cross_two A p a j k hjk
        have hWF : ∃ ys, List.Forall₂ (fun x y => relabel (crossWith A ls (leg4 p a j, [leg4 p a k])) x = .ok y) Ms ys := by
          rw [hlsd, hc]
          clear_value rl W H
          clear hM hHd hW hrl hrlF g3 g2 hout hints e1 hls
          induction Ms with
          | nil => exact ⟨[], List.Forall₂.nil⟩
          | cons x Ms ih =>
            obtain ⟨ys, hys⟩ := ih fun z hz => hω z (List.mem_cons_of_mem _ hz)
            obtain ⟨ω, hx⟩ := hω x (List.mem_cons_self ..)
            exact ⟨_ :: ys, List.Forall₂.cons (relabel_ofFn (fun t => toSide A.toAttr (evSide t) (leg4 p a (π t))) π
              (fun t => by rw [toSide_index]; rfl) x ω hx) hys⟩
        obtain ⟨ys, hys⟩ := hWF
        rw [hW]
        dsimp only
        rw [← hrlF _ _ hys]
        rw [hlsd, hc] at hys
        rw [hlsd, hc, reaction_amp A θ i hα hβ p a π Ms ys hω hys, h0, h1]
        apply Finset.sum_congr rfl
        intro γ _
        simp only [hl, true_and]
        by_cases c1 : γ i = j <;> by_cases c2 : γ (mate i) = k <;> simp [c1, c2]
      · rw [if_neg fun h => hl h.2]
        symm
        apply Finset.sum_eq_zero
        intro γ _
        simp [hl]
  simp only [e2]
  have sw : ∑ j : Fin 4, ∑ k : Fin 4, ∑ γ : Equiv.Perm (Fin 4), (if γ i = j ∧ γ (mate i) = k then
        (if leads (leg4 p a j) = true ∧ p ∘ γ = θ then eventAmp α β Ms γ else 0) else 0) =
      ∑ γ : Equiv.Perm (Fin 4), ∑ j : Fin 4, ∑ k : Fin 4, (if γ i = j ∧ γ (mate i) = k then
        (if leads (leg4 p a j) = true ∧ p ∘ γ = θ then eventAmp α β Ms γ else 0) else 0) := by
    rw [Finset.sum_comm]
    conv_lhs => enter [2, k]; rw [Finset.sum_comm]
    rw [Finset.sum_comm]
    exact Finset.sum_congr rfl fun γ _ => Finset.sum_comm
  rw [sw]
  apply Finset.sum_congr rfl
  intro γ _
  exact sum_pair_if (fun j _ => if leads (leg4 p a j) = true ∧ p ∘ γ = θ then eventAmp α β Ms γ else 0) (γ i) (γ (mate i))

end

end PyBBN
