import Verif.Props.MatrixElements
/-!
# C44, C45: merging of integrals
-/
namespace PyBBN

set_option linter.unusedSectionVars false

/-! ## Specification -/

/-- Sum of the amplitudes of a list of matrix elements. -/
noncomputable def sumAmp (l : List M4) (Q : ℕ → Fin 4 → ℝ) (m : ℕ → ℝ) : ℝ := (l.map fun x => x.amp Q m).sum

section
variable {S : Type*} [DecidableEq S]

/-- Two integrals describe the same collision term: the same first particle and the same species (with
multiplicity) on each side. -/
def SameKey (i j : Integral4 S) : Prop :=
  i.particle = j.particle ∧
  (∀ s, (i.reaction.filter (·.side = -1)).countP (·.specie = s) =
    (j.reaction.filter (·.side = -1)).countP (·.specie = s)) ∧
  (∀ s, (i.reaction.filter (·.side = 1)).countP (·.specie = s) =
    (j.reaction.filter (·.side = 1)).countP (·.specie = s))

theorem SameKey.refl (i : Integral4 S) : SameKey i i := ⟨rfl, fun _ => rfl, fun _ => rfl⟩

theorem SameKey.symm {i j : Integral4 S} (h : SameKey i j) : SameKey j i :=
  ⟨h.1.symm, fun s => (h.2.1 s).symm, fun s => (h.2.2 s).symm⟩

theorem SameKey.trans {i j k : Integral4 S} (h : SameKey i j) (h' : SameKey j k) : SameKey i k :=
  ⟨h.1.trans h'.1, fun s => (h.2.1 s).trans (h'.2.1 s), fun s => (h.2.2 s).trans (h'.2.2 s)⟩

open Classical in
/-- Summed amplitude of all integrals of a list that describe the same term as `j`. -/
noncomputable def groupAmp (j : Integral4 S) (l : List (Integral4 S)) (Q : ℕ → Fin 4 → ℝ) (m : ℕ → ℝ) : ℝ :=
  ((l.filter fun i => SameKey j i).map fun i => sumAmp i.Ms Q m).sum

theorem speciesOn_perm (k : ℤ) (r r' : List (Item S)) :
    (speciesOn k r).isPerm (speciesOn k r') = true ↔
      ∀ s, (r.filter (·.side = k)).countP (·.specie = s) = (r'.filter (·.side = k)).countP (·.specie = s) := by
  rw [List.isPerm_iff, List.perm_iff_count]
  have : ∀ (r : List (Item S)) s, (speciesOn k r).count s = (r.filter (·.side = k)).countP (·.specie = s) := by
    intro r s
    unfold speciesOn
    rw [List.count, List.countP_map]
    apply List.countP_congr
    intro x _
    simp
  simp only [this]

theorem similar_iff (n o : Integral4 S) : similar n o = true ↔ SameKey n o := by
  unfold similar SameKey
  rw [Bool.and_eq_true, Bool.and_eq_true, decide_eq_true_eq, speciesOn_perm, speciesOn_perm, and_assoc]

/-! ## Merging the elements -/

theorem absorb_amp (os : List M4) (n : M4) (hK : ∀ o ∈ os, o.K = 0) (Q : ℕ → Fin 4 → ℝ) (m : ℕ → ℝ) :
    ∀ os', absorb os n = some os' →
      (∀ o ∈ os', o.K = 0) ∧ sumAmp os' Q m = sumAmp os Q m + n.amp Q m - n.K := by
  induction os with
  | nil => intro os' h; simp [absorb] at h
  | cons o os ih =>
    intro os' h
    have h0 : o.K = 0 := hK o (List.mem_cons_self ..)
    have hK' : ∀ o ∈ os, o.K = 0 := fun o ho => hK o (List.mem_cons_of_mem _ ho)
    unfold absorb at h
    rw [if_neg (by simpa using h0)] at h
    by_cases hs : o.stackable n = true
    · rw [if_pos hs] at h
      obtain rfl := Option.some.inj h
      constructor
      · intro x hx
        rcases List.mem_cons.mp hx with rfl | hx
        · exact h0
        · exact hK' x hx
      · have := C43_stack o n hs Q m
        simp only [sumAmp, List.map_cons, List.sum_cons, this]
        ring
    · rw [if_neg hs] at h
      cases ha : absorb os n with
      | none => rw [ha] at h; simp at h
      | some q =>
        rw [ha] at h
        obtain rfl := Option.some.inj h
        obtain ⟨i1, i2⟩ := ih hK' q ha
        constructor
        · intro x hx
          rcases List.mem_cons.mp hx with rfl | hx
          · exact h0
          · exact i1 x hx
        · simp only [sumAmp, List.map_cons, List.sum_cons] at i2 ⊢
          rw [i2]; ring

theorem mergeMs_amp (old new : List M4) (h1 : ∀ x ∈ old, x.K = 0) (h2 : ∀ x ∈ new, x.K = 0)
    (Q : ℕ → Fin 4 → ℝ) (m : ℕ → ℝ) :
    (∀ x ∈ mergeMs old new, x.K = 0) ∧ sumAmp (mergeMs old new) Q m = sumAmp old Q m + sumAmp new Q m := by
  have gen : ∀ (new : List M4) (st : List M4 × List M4), (∀ x ∈ new, x.K = 0) → (∀ x ∈ st.1, x.K = 0) →
      (∀ x ∈ st.2, x.K = 0) →
      (∀ x ∈ (new.foldl mergeStep st).1, x.K = 0) ∧
      (∀ x ∈ (new.foldl mergeStep st).2, x.K = 0) ∧
      sumAmp (new.foldl mergeStep st).1 Q m +
      sumAmp (new.foldl mergeStep st).2 Q m = sumAmp st.1 Q m + sumAmp st.2 Q m + sumAmp new Q m := by
    intro new
    induction new with
    | nil => intro st _ h1 h2; exact ⟨h1, h2, by simp [sumAmp]⟩
    | cons n new ih =>
      intro st hn hs1 hs2
      have hn0 : n.K = 0 := hn n (List.mem_cons_self ..)
      rw [List.foldl_cons]
      cases ha : absorb st.1 n with
      | some o =>
        have hstep : mergeStep st n = (o, st.2) := by unfold mergeStep; rw [ha]
        rw [hstep]
        obtain ⟨a1, a2⟩ := absorb_amp st.1 n hs1 Q m o ha
        obtain ⟨b1, b2, b3⟩ := ih (o, st.2) (fun x hx => hn x (List.mem_cons_of_mem _ hx)) a1 hs2
        refine ⟨b1, b2, ?_⟩
        rw [b3]
        dsimp only
        rw [a2, hn0]
        simp only [sumAmp, List.map_cons, List.sum_cons]
        ring
      | none =>
        have hstep : mergeStep st n = (st.1, st.2 ++ [n]) := by unfold mergeStep; rw [ha]
        rw [hstep]
        obtain ⟨b1, b2, b3⟩ := ih (st.1, st.2 ++ [n]) (fun x hx => hn x (List.mem_cons_of_mem _ hx)) hs1
          (by
            intro x hx
            rcases List.mem_append.mp hx with hx | hx
            · exact hs2 x hx
            · rw [List.mem_singleton] at hx; rw [hx]; exact hn0)
        refine ⟨b1, b2, ?_⟩
        rw [b3]
        simp only [sumAmp, List.map_cons, List.sum_cons, List.map_append, List.sum_append, List.map_nil,
          List.sum_nil]
        ring
  obtain ⟨g1, g2, g3⟩ := gen new (old, []) h2 h1 (by simp)
  unfold mergeMs
  dsimp only
  constructor
  · intro x hx
    rcases List.mem_append.mp hx with hx | hx
    · exact g1 x hx
    · exact g2 x hx
  · have : ∀ u v : List M4, sumAmp (u ++ v) Q m = sumAmp u Q m + sumAmp v Q m := by
      intro u v; simp [sumAmp]
    rw [this, g3]
    simp [sumAmp]

/-! ## C44 -/

/-- `o'` is `o` up to its matrix elements. -/
theorem sameKey_Ms (j o : Integral4 S) (ms : List M4) : SameKey j { o with Ms := ms } ↔ SameKey j o := Iff.rfl

/-- What one `append` does to the list, up to matrix elements. -/
theorem dedupAppend_shape (l : List (Integral4 S)) (n : Integral4 S) :
    (∀ o ∈ dedupAppend l n, (∃ i ∈ l, o.particle = i.particle ∧ o.reaction = i.reaction) ∨ o = n) ∧
    (∀ i ∈ l, ∃ o ∈ dedupAppend l n, o.particle = i.particle ∧ o.reaction = i.reaction) ∧
    (∃ o ∈ dedupAppend l n, SameKey n o) := by
  induction l with
  | nil =>
    refine ⟨?_, by simp, ⟨n, by simp [dedupAppend], SameKey.refl n⟩⟩
    intro o ho
    simp only [dedupAppend, List.mem_singleton] at ho
    exact Or.inr ho
  | cons o l ih =>
    unfold dedupAppend
    by_cases hs : similar n o = true
    · rw [if_pos hs]
      refine ⟨?_, ?_, ?_⟩
      · intro x hx
        rcases List.mem_cons.mp hx with rfl | hx
        · exact Or.inl ⟨o, List.mem_cons_self .., rfl, rfl⟩
        · exact Or.inl ⟨x, List.mem_cons_of_mem _ hx, rfl, rfl⟩
      · intro i hi
        rcases List.mem_cons.mp hi with rfl | hi
        · exact ⟨_, List.mem_cons_self .., rfl, rfl⟩
        · exact ⟨i, List.mem_cons_of_mem _ hi, rfl, rfl⟩
      · exact ⟨_, List.mem_cons_self .., (similar_iff n o).mp hs⟩
    · rw [if_neg hs]
      obtain ⟨i1, i2, x, hx, hk⟩ := ih
      refine ⟨?_, ?_, ⟨x, List.mem_cons_of_mem _ hx, hk⟩⟩
      · intro y hy
        rcases List.mem_cons.mp hy with rfl | hy
        · exact Or.inl ⟨_, List.mem_cons_self .., rfl, rfl⟩
        · rcases i1 y hy with ⟨i, hi, e⟩ | e
          · exact Or.inl ⟨i, List.mem_cons_of_mem _ hi, e⟩
          · exact Or.inr e
      · intro i hi
        rcases List.mem_cons.mp hi with rfl | hi
        · exact ⟨_, List.mem_cons_self .., rfl, rfl⟩
        · obtain ⟨y, hy, e⟩ := i2 i hi
          exact ⟨y, List.mem_cons_of_mem _ hy, e⟩

theorem sameKey_of_eq {i o j : Integral4 S} (h1 : o.particle = i.particle) (h2 : o.reaction = i.reaction)
    (h : SameKey j i) : SameKey j o := by
  unfold SameKey at h ⊢
  rw [h1, h2]; exact h

theorem dedupAppend_distinct (l : List (Integral4 S)) (n : Integral4 S)
    (h : l.Pairwise fun i j => ¬ SameKey i j) :
    (dedupAppend l n).Pairwise fun i j => ¬ SameKey i j := by
  induction l with
  | nil => simp [dedupAppend]
  | cons o l ih =>
    rw [List.pairwise_cons] at h
    unfold dedupAppend
    by_cases hs : similar n o = true
    · rw [if_pos hs, List.pairwise_cons]
      exact ⟨fun x hx => h.1 x hx, h.2⟩
    · rw [if_neg hs, List.pairwise_cons]
      refine ⟨?_, ih h.2⟩
      intro x hx hk
      rcases (dedupAppend_shape l n).1 x hx with ⟨i, hi, e1, e2⟩ | rfl
      · exact h.1 i hi (sameKey_of_eq e1.symm e2.symm hk)
      · exact hs ((similar_iff x o).mpr hk.symm)

/-- **C44 (no duplicates).** No two integrals of the result have the same first particle and the same species on both
sides. -/
theorem C44_distinct (l : List (Integral4 S)) : (dedup l).Pairwise fun i j => ¬ SameKey i j := by
  unfold dedup
  have : ∀ (l acc : List (Integral4 S)), acc.Pairwise (fun i j => ¬ SameKey i j) →
      (l.foldl dedupAppend acc).Pairwise fun i j => ¬ SameKey i j := by
    intro l
    induction l with
    | nil => intro acc h; exact h
    | cons n l ih => intro acc h; exact ih _ (dedupAppend_distinct acc n h)
  exact this l [] List.Pairwise.nil

/-- **C44 (nothing lost, nothing invented).** Every input is represented by an integral with the same key; every integral
of the result has the particle and the reaction of one of the inputs. -/
theorem C44_represented (l : List (Integral4 S)) :
    (∀ i ∈ l, ∃ o ∈ dedup l, SameKey i o) ∧
    (∀ o ∈ dedup l, ∃ i ∈ l, o.particle = i.particle ∧ o.reaction = i.reaction) := by
  unfold dedup
  have : ∀ (l acc : List (Integral4 S)),
      (∀ i, (i ∈ l ∨ i ∈ acc) → ∃ o ∈ l.foldl dedupAppend acc, SameKey i o) ∧
      (∀ o ∈ l.foldl dedupAppend acc, ∃ i, (i ∈ l ∨ i ∈ acc) ∧ o.particle = i.particle ∧ o.reaction = i.reaction) := by
    intro l
    induction l with
    | nil =>
      intro acc
      exact ⟨fun i hi => ⟨i, by simpa using hi, SameKey.refl i⟩, fun o ho => ⟨o, Or.inr ho, rfl, rfl⟩⟩
    | cons n l ih =>
      intro acc
      obtain ⟨s1, s2, s3⟩ := dedupAppend_shape acc n
      obtain ⟨j1, j2⟩ := ih (dedupAppend acc n)
      constructor
      · intro i hi
        have key : ∃ o, o ∈ dedupAppend acc n ∧ SameKey i o ∨ (o ∈ l ∧ o = i) := by
          rcases hi with hi | hi
          · rcases List.mem_cons.mp hi with rfl | hi
            · obtain ⟨o, ho, hk⟩ := s3
              exact ⟨o, Or.inl ⟨ho, hk⟩⟩
            · exact ⟨i, Or.inr ⟨hi, rfl⟩⟩
          · obtain ⟨o, ho, e1, e2⟩ := s2 i hi
            exact ⟨o, Or.inl ⟨ho, sameKey_of_eq e1 e2 (SameKey.refl i)⟩⟩
        obtain ⟨o, ⟨ho, hk⟩ | ⟨ho, rfl⟩⟩ := key
        · obtain ⟨o', ho', hk'⟩ := j1 o (Or.inr ho)
          exact ⟨o', ho', hk.trans hk'⟩
        · exact j1 o (Or.inl ho)
      · intro o ho
        obtain ⟨i, hi, e1, e2⟩ := j2 o ho
        rcases hi with hi | hi
        · exact ⟨i, Or.inl (List.mem_cons_of_mem _ hi), e1, e2⟩
        · rcases s1 i hi with ⟨i', hi', e3, e4⟩ | rfl
          · exact ⟨i', Or.inr hi', e1.trans e3, e2.trans e4⟩
          · exact ⟨i, Or.inl (List.mem_cons_self ..), e1, e2⟩
  obtain ⟨a, b⟩ := this l []
  refine ⟨fun i hi => a i (Or.inl hi), fun o ho => ?_⟩
  obtain ⟨i, hi, e⟩ := b o ho
  exact ⟨i, by simpa using hi, e⟩

theorem groupAmp_cons (j i : Integral4 S) (l : List (Integral4 S)) (Q : ℕ → Fin 4 → ℝ) (m : ℕ → ℝ) :
    open Classical in
    groupAmp j (i :: l) Q m = (if SameKey j i then sumAmp i.Ms Q m else 0) + groupAmp j l Q m := by
  unfold groupAmp
  by_cases h : SameKey j i
  · rw [List.filter_cons_of_pos (by simpa using h), if_pos h, List.map_cons, List.sum_cons]
  · rw [List.filter_cons_of_neg (by simpa using h), if_neg h, zero_add]

theorem dedupAppend_amp (l : List (Integral4 S)) (n : Integral4 S) (hl : ∀ i ∈ l, ∀ x ∈ i.Ms, x.K = 0)
    (hn : ∀ x ∈ n.Ms, x.K = 0) (j : Integral4 S) (Q : ℕ → Fin 4 → ℝ) (m : ℕ → ℝ) :
    (∀ i ∈ dedupAppend l n, ∀ x ∈ i.Ms, x.K = 0) ∧
    groupAmp j (dedupAppend l n) Q m = groupAmp j (n :: l) Q m := by
  induction l with
  | nil =>
    refine ⟨?_, rfl⟩
    intro i hi
    simp only [dedupAppend, List.mem_singleton] at hi
    rw [hi]; exact hn
  | cons o l ih =>
    have ho := hl o (List.mem_cons_self ..)
    have hl' : ∀ i ∈ l, ∀ x ∈ i.Ms, x.K = 0 := fun i hi => hl i (List.mem_cons_of_mem _ hi)
    obtain ⟨m1, m2⟩ := mergeMs_amp o.Ms n.Ms ho hn Q m
    unfold dedupAppend
    by_cases hs : similar n o = true
    · rw [if_pos hs]
      refine ⟨?_, ?_⟩
      · intro i hi
        rcases List.mem_cons.mp hi with rfl | hi
        · exact m1
        · exact hl' i hi
      · rw [groupAmp_cons, groupAmp_cons, groupAmp_cons]
        have hno := (similar_iff n o).mp hs
        by_cases hj : SameKey j o
        · rw [if_pos ((sameKey_Ms j o _).mpr hj), if_pos hj, if_pos (hj.trans hno.symm)]
          dsimp only
          rw [m2]; ring
        · rw [if_neg (fun h => hj ((sameKey_Ms j o _).mp h)), if_neg hj, if_neg (fun h => hj (h.trans hno))]
          ring
    · rw [if_neg hs]
      obtain ⟨i1, i2⟩ := ih hl'
      refine ⟨?_, ?_⟩
      · intro i hi
        rcases List.mem_cons.mp hi with rfl | hi
        · exact ho
        · exact i1 i hi
      · rw [groupAmp_cons, i2, groupAmp_cons, groupAmp_cons, groupAmp_cons]
        ring

/-- **C44 (amplitude).** For elements without a constant part the summed amplitude of every group of
integrals is unchanged, at all momenta and masses. -/
theorem C44_amplitude (l : List (Integral4 S)) (hK : ∀ i ∈ l, ∀ x ∈ i.Ms, x.K = 0) (j : Integral4 S)
    (Q : ℕ → Fin 4 → ℝ) (m : ℕ → ℝ) : groupAmp j (dedup l) Q m = groupAmp j l Q m := by
  unfold dedup
  have : ∀ (l acc : List (Integral4 S)), (∀ i ∈ l, ∀ x ∈ i.Ms, x.K = 0) → (∀ i ∈ acc, ∀ x ∈ i.Ms, x.K = 0) →
      groupAmp j (l.foldl dedupAppend acc) Q m = groupAmp j l Q m + groupAmp j acc Q m := by
    intro l
    induction l with
    | nil => intro acc _ _; simp [groupAmp]
    | cons n l ih =>
      intro acc h1 h2
      obtain ⟨a1, a2⟩ := dedupAppend_amp acc n h2 (h1 n (List.mem_cons_self ..)) j Q m
      rw [List.foldl_cons, ih _ (fun i hi => h1 i (List.mem_cons_of_mem _ hi)) a1, a2, groupAmp_cons,
        groupAmp_cons j n l]
      ring
  rw [this l [] hK (by simp)]
  simp [groupAmp]

/-- **C44 (constants are lost).** Merging a second integral with a constant element into a first one with a constant element
keeps only the first constant. -/
theorem C44_constant_dropped (p : S) (r1 r2 : List (Item S)) (k1 k2 : ℝ) (o : Ord4) (h1 : k1 ≠ 0)
    (hs : SameKey (⟨p, r2, []⟩ : Integral4 S) ⟨p, r1, []⟩) (Q : ℕ → Fin 4 → ℝ) (m : ℕ → ℝ) :
    groupAmp ⟨p, r1, []⟩ (dedup [⟨p, r1, [⟨0, 0, k1, o⟩]⟩, ⟨p, r2, [⟨0, 0, k2, o⟩]⟩]) Q m = k1 ∧
    groupAmp ⟨p, r1, []⟩ [⟨p, r1, [⟨0, 0, k1, o⟩]⟩, ⟨p, r2, [⟨0, 0, k2, o⟩]⟩] Q m = k1 + k2 := by
  have hs' : similar (⟨p, r2, [⟨0, 0, k2, o⟩]⟩ : Integral4 S) ⟨p, r1, [⟨0, 0, k1, o⟩]⟩ = true :=
    (similar_iff _ _).mpr hs
  have e : dedup [(⟨p, r1, [⟨0, 0, k1, o⟩]⟩ : Integral4 S), ⟨p, r2, [⟨0, 0, k2, o⟩]⟩] =
      [⟨p, r1, [⟨0, 0, k1, o⟩]⟩] := by
    unfold dedup
    rw [List.foldl_cons, List.foldl_cons, List.foldl_nil]
    simp only [dedupAppend, hs', if_true]
    simp [mergeMs, mergeStep, absorb, h1, M4.iadd]
  rw [e]
  have k1 : SameKey (⟨p, r1, []⟩ : Integral4 S) ⟨p, r1, [⟨0, 0, k1, o⟩]⟩ := SameKey.refl _
  have k2 : SameKey (⟨p, r1, []⟩ : Integral4 S) ⟨p, r2, [⟨0, 0, k2, o⟩]⟩ := SameKey.symm hs
  constructor
  · rw [groupAmp_cons, if_pos k1]
    simp [groupAmp, sumAmp, M4.amp, ampAt]
  · rw [groupAmp_cons, groupAmp_cons, if_pos k1, if_pos k2]
    simp [groupAmp, sumAmp, M4.amp, ampAt]

/-- **C44 (element added to the wrong indices).** If the first old element has a constant part, the momentum-dependent couplings
of the new elements are added to it whatever their index order: the merged amplitude carries the new
couplings at the old indices. -/
theorem C44_constant_absorbs (x y : M4) (hx : x.K ≠ 0) (Q : ℕ → Fin 4 → ℝ) (m : ℕ → ℝ) :
    mergeMs [x] [y] = [x.iadd y] ∧
    sumAmp (mergeMs [x] [y]) Q m = x.amp Q m + ampAt y.K1 y.K2 0 x.order Q m := by
  have e : mergeMs [x] [y] = [x.iadd y] := by simp [mergeMs, mergeStep, absorb, hx]
  refine ⟨e, ?_⟩
  rw [e]
  simp only [sumAmp, List.map_cons, List.map_nil, List.sum_cons, List.sum_nil, M4.amp, M4.iadd, ampAt]
  ring

/-- **C44 (positions).** Two generated reactions of the same group have the same species at every position, so adding
their matrix elements position by position is meaningful. -/
theorem C44_same_positions (A : Attr S) (hinj : Function.Injective A.name) (i j : Integral4 S)
    (hi : WellFormed A i.reaction) (hj : WellFormed A j.reaction)
    (pi : (i.reaction.map (·.specie)).head? = some i.particle)
    (pj : (j.reaction.map (·.specie)).head? = some j.particle) (h : SameKey i j) :
    i.reaction.map (·.specie) = j.reaction.map (·.specie) := by
  obtain ⟨h1, t1, R1, e1, l1, r1, -, -, st1, sR1, -⟩ := hi
  obtain ⟨h2, t2, R2, e2, l2, r2, -, -, st2, sR2, -⟩ := hj
  have k1 := (speciesOn_perm (-1) i.reaction j.reaction).mpr h.2.1
  have k2 := (speciesOn_perm 1 i.reaction j.reaction).mpr h.2.2
  rw [List.isPerm_iff] at k1 k2
  unfold speciesOn at k1 k2
  rw [e1] at pi k1 k2
  rw [e2] at pj k1 k2
  obtain ⟨f1, f1'⟩ := filter_sides (h1 :: t1) R1 l1 r1
  obtain ⟨f2, f2'⟩ := filter_sides (h2 :: t2) R2 l2 r2
  rw [f1, f2] at k1
  rw [f1', f2'] at k2
  have hh : h1.specie = h2.specie := by
    simp only [List.cons_append, List.map_cons, List.head?_cons, Option.some.injEq] at pi pj
    rw [pi, pj, h.1]
  rw [List.map_cons, List.map_cons, hh] at k1
  have k1' := (List.perm_cons _).mp k1
  have srt : ∀ l : List (Item S), l.Pairwise (fun x y => sortKey A x ≤ sortKey A y) →
      (l.map (·.specie)).Pairwise fun a b => A.name a ≤ A.name b := by
    intro l hl
    rw [List.pairwise_map]
    refine hl.imp ?_
    intro x y hxy
    unfold sortKey at hxy
    rw [Prod.Lex.toLex_le_toLex] at hxy
    rcases hxy with hxy | hxy
    · exact hxy.le
    · exact hxy.1.le
  have eq : ∀ a b : List (Item S), a.Pairwise (fun x y => sortKey A x ≤ sortKey A y) →
      b.Pairwise (fun x y => sortKey A x ≤ sortKey A y) → (a.map (·.specie)).Perm (b.map (·.specie)) →
      a.map (·.specie) = b.map (·.specie) := by
    intro a b ha hb hp
    exact hp.eq_of_pairwise (le := fun a b => A.name a ≤ A.name b)
      (fun x y _ _ h1 h2 => hinj (le_antisymm h1 h2)) (srt a ha) (srt b hb)
  rw [e1, e2, List.map_append, List.map_append, List.map_cons, List.map_cons, hh, eq t1 t2 st1 st2 k1',
    eq R1 R2 sR1 sR2 k2]

theorem generated_ints (A : Attr S) (p0 p1 : List S) (a0 a1 : List Bool)
    (h0 : p0.length = a0.length) (h1 : p1.length = a1.length) (Ms : List M4)
    (hM : ∀ x ∈ Ms, x.K = 0 ∧ [x.order.a, x.order.b, x.order.c, x.order.d].Perm
      (List.range (p0.length + p1.length))) :
    ∃ rs ints out, reactionsMap A p0 p1 a0 a1 = .ok rs ∧
      crossGenerating A p0 p1 a0 a1 Ms = .ok out ∧
      out.Pairwise (fun i j => ¬ SameKey i j) ∧
      List.Forall₂ (fun r i => Integral4.reaction i = r ∧
        (r.head?.map (·.specie)) = some i.particle ∧
        List.Forall₂ (fun x y => relabel r x = .ok y) Ms i.Ms) rs ints ∧
      out = dedup ints ∧ ∀ j Q m, groupAmp j out Q m = groupAmp j ints Q m := by
  obtain ⟨rs, q1, -, q3⟩ := reactionsMap_mem A p0 p1 a0 a1 h0 h1
  have hs := legs_side p0 p1 a0 a1
  have rel : ∀ r ∈ rs, ∃ h t ys, r.filter (·.side = -1) = h :: t ∧ h.antiparticle = false ∧
      r.head? = some h ∧ Ms.mapM (relabel r) = .ok ys ∧ (∀ y ∈ ys, y.K = 0) ∧
      List.Forall₂ (fun x y => relabel r x = .ok y) Ms ys := by
    intro r hr
    have hidx := C41_legs_once A p0 p1 a0 a1 h0 h1 rs q1 r hr
    obtain ⟨s, i, hp, hi, hro⟩ := (q3 r).mp hr
    have hss : ∀ x ∈ s, x.side = -1 ∨ x.side = 1 := fun x hx => hs x (hp.mem_iff.mp hx)
    obtain ⟨h, L, R, -, -, -, hL, hR, e3⟩ := reactionOf_eq A s i hi hss
    rw [e3] at hro
    have hra : r = (h :: sortItems A L) ++ sortItems A R ∧ h.antiparticle = false := by
      split_ifs at hro with c1 c2
      · simp at hro
      · simp at hro
      · simp only [Except.ok.injEq, Option.some.injEq] at hro
        exact ⟨hro.symm, by simpa using c1⟩
    have hidx' : (r.map (·.index)).Perm (List.range (p0.length + p1.length)) := by
      have := hidx.map Prod.fst
      rw [List.map_map, List.map_fst_zip (by simp)] at this
      exact this
    have hall : ∀ l : List M4, (∀ x ∈ l, x.K = 0 ∧ [x.order.a, x.order.b, x.order.c, x.order.d].Perm
        (List.range (p0.length + p1.length))) → ∃ ys, l.mapM (relabel r) = .ok ys ∧ (∀ y ∈ ys, y.K = 0) ∧
        List.Forall₂ (fun x y => relabel r x = .ok y) l ys := by
      intro l
      induction l with
      | nil => intro _; exact ⟨[], rfl, by simp, List.Forall₂.nil⟩
      | cons x l ih =>
        intro hl
        obtain ⟨ys, y1, y2, y3⟩ := ih fun z hz => hl z (List.mem_cons_of_mem _ hz)
        obtain ⟨hx1, hx2⟩ := hl x (List.mem_cons_self ..)
        have hmem : ∀ v ∈ [x.order.a, x.order.b, x.order.c, x.order.d], v ∈ r.map (·.index) :=
          fun v hv => hidx'.mem_iff.mpr (hx2.mem_iff.mp hv)
        obtain ⟨ja, xa, pa, ga, ia⟩ := posOf_spec r x.order.a (hmem _ (by simp))
        obtain ⟨jb, xb, pb, gb, ib⟩ := posOf_spec r x.order.b (hmem _ (by simp))
        obtain ⟨jc, xc, pc, gc, ic⟩ := posOf_spec r x.order.c (hmem _ (by simp))
        obtain ⟨jd, xd, pd, gd, id⟩ := posOf_spec r x.order.d (hmem _ (by simp))
        have hx : relabel r x = .ok { x with
            order := normOrder ⟨ja, jb, jc, jd⟩,
            K2 := if xor xa.crossed xb.crossed then x.K2 * (-1) else x.K2 } := by
          unfold relabel
          rw [pa, pb, pc, pd]
          show M4.applyOrder x ⟨ja, jb, jc, jd⟩ r = _
          unfold M4.applyOrder
          dsimp only
          rw [ga, gb]
        refine ⟨_ :: ys, ?_, ?_, List.Forall₂.cons hx y3⟩
        · rw [List.mapM_cons, hx, y1]
          rfl
        · intro y hy
          rcases List.mem_cons.mp hy with rfl | hy
          · exact hx1
          · exact y2 y hy
    obtain ⟨ys, y1, y2, y3⟩ := hall Ms hM
    refine ⟨h, sortItems A L, ys, ?_, hra.2, by rw [hra.1]; rfl, y1, y2, y3⟩
    rw [hra.1]
    refine (filter_sides _ _ ?_ ?_).1
    · intro x hx
      apply hL
      rcases List.mem_cons.mp hx with rfl | hx
      · exact List.mem_cons_self ..
      · exact List.mem_cons_of_mem _ ((sortItems_perm A L).mem_iff.mp hx)
    · intro x hx; exact hR x ((sortItems_perm A R).mem_iff.mp hx)
  have fold : ∀ (l : List (List (Item S))), (∀ r ∈ l, r ∈ rs) → ∀ acc : List (Integral4 S),
      ∃ ints, l.foldlM (initIntegral Ms) acc = .ok (acc ++ ints) ∧
        (∀ i ∈ ints, ∀ x ∈ i.Ms, x.K = 0) ∧
        List.Forall₂ (fun r i => Integral4.reaction i = r ∧
          (r.head?.map (·.specie)) = some i.particle ∧
          List.Forall₂ (fun x y => relabel r x = .ok y) Ms i.Ms) l ints := by
    intro l
    induction l with
    | nil => intro _ acc; exact ⟨[], by simp [pure, Except.pure], by simp, List.Forall₂.nil⟩
    | cons r l ih =>
      intro hl acc
      obtain ⟨h, t, ys, e1, e2, e3, e4, e5, e6⟩ := rel r (hl r (List.mem_cons_self ..))
      obtain ⟨ints, i1, i2, i3⟩ := ih (fun x hx => hl x (List.mem_cons_of_mem _ hx)) (acc ++ [⟨h.specie, r, ys⟩])
      refine ⟨⟨h.specie, r, ys⟩ :: ints, ?_, ?_, List.Forall₂.cons ⟨rfl, by rw [e3]; rfl, e6⟩ i3⟩
      · have hstep : initIntegral Ms acc r = .ok (acc ++ [⟨h.specie, r, ys⟩]) := by
          unfold initIntegral
          rw [e1]
          dsimp only
          rw [if_neg (by simp [e2]), e4]
          rfl
        rw [List.foldlM_cons, hstep]
        refine Eq.trans i1 ?_
        rw [List.append_assoc]
        rfl
      · intro i hi
        rcases List.mem_cons.mp hi with rfl | hi
        · exact e5
        · exact i2 i hi
  obtain ⟨ints, i1, i2, i3⟩ := fold rs (fun r hr => hr) []
  refine ⟨rs, ints, dedup ints, q1, ?_, C44_distinct ints, i3, rfl, fun j Q m => C44_amplitude ints i2 j Q m⟩
  unfold crossGenerating
  rw [q1]
  simp only [bind, Except.bind, i1]
  rfl

/-- The whole construction: the summed amplitude of each group of integrals of a `CrossGeneratingInteraction` is the sum
over the generated reactions of the group of their relabelled matrix elements. -/
theorem C44_generated (A : Attr S) (p0 p1 : List S) (a0 a1 : List Bool)
    (h0 : p0.length = a0.length) (h1 : p1.length = a1.length) (Ms : List M4)
    (hM : ∀ x ∈ Ms, x.K = 0 ∧ [x.order.a, x.order.b, x.order.c, x.order.d].Perm
      (List.range (p0.length + p1.length))) :
    ∃ rs ints out, reactionsMap A p0 p1 a0 a1 = .ok rs ∧
      crossGenerating A p0 p1 a0 a1 Ms = .ok out ∧
      out.Pairwise (fun i j => ¬ SameKey i j) ∧
      List.Forall₂ (fun r i => Integral4.reaction i = r ∧
        (r.head?.map (·.specie)) = some i.particle ∧
        List.Forall₂ (fun x y => relabel r x = .ok y) Ms i.Ms) rs ints ∧
      ∀ j Q m, groupAmp j out Q m = groupAmp j ints Q m := by
  obtain ⟨rs, ints, out, g1, g2, g3, g4, -, g5⟩ := generated_ints A p0 p1 a0 a1 h0 h1 Ms hM
  exact ⟨rs, ints, out, g1, g2, g3, g4, g5⟩

/-! ## Three-particle elements -/

/-- **C44, three particles.** With positive constants the merge keeps their sum; an old element with `K = 0` raises
`AttributeError` because `ThreeParticleM` has no `stackable`. -/
theorem C44_three (old new : List ℝ) (h1 : ∀ x ∈ old, 0 < x) (h2 : ∀ x ∈ new, 0 < x) :
    ∃ l, mergeMs3 old new = .ok l ∧ l.sum = old.sum + new.sum := by
  have gen : ∀ (new : List ℝ) (st : List ℝ × List ℝ), (∀ x ∈ st.1, 0 < x) → (∀ x ∈ new, 0 < x) →
      ∃ st', new.foldlM mergeStep3 st = .ok st' ∧
        st'.1.sum + st'.2.sum = st.1.sum + st.2.sum + new.sum := by
    intro new
    induction new with
    | nil => intro st _ _; exact ⟨st, rfl, by simp⟩
    | cons n new ih =>
      intro st hs hn
      obtain ⟨o1, o2⟩ := st
      cases o1 with
      | nil =>
        obtain ⟨st', s1, s2⟩ := ih ([], o2 ++ [n]) (by simp) (fun x hx => hn x (List.mem_cons_of_mem _ hx))
        refine ⟨st', ?_, ?_⟩
        · rw [List.foldlM_cons]
          exact s1
        · rw [s2]; simp; ring
      | cons o os =>
        have ho : o ≠ 0 := (hs o (List.mem_cons_self ..)).ne'
        obtain ⟨st', s1, s2⟩ := ih ((o + n) :: os, o2)
          (by
            intro x hx
            rcases List.mem_cons.mp hx with rfl | hx
            · exact add_pos (hs o (List.mem_cons_self ..)) (hn n (List.mem_cons_self ..))
            · exact hs x (List.mem_cons_of_mem _ hx))
          (fun x hx => hn x (List.mem_cons_of_mem _ hx))
        refine ⟨st', ?_, ?_⟩
        · rw [List.foldlM_cons]
          have hstep : mergeStep3 (o :: os, o2) n = .ok ((o + n) :: os, o2) := by
            simp [mergeStep3, absorb3, ho, Except.map]
          rw [hstep]
          exact s1
        · rw [s2]; simp; ring
  obtain ⟨st', s1, s2⟩ := gen new (old, []) h1 h2
  refine ⟨st'.1 ++ st'.2, ?_, ?_⟩
  · unfold mergeMs3
    rw [s1]
    rfl
  · rw [List.sum_append, s2]; simp

theorem C44_three_zero_raises (os new : List ℝ) (n : ℝ) :
    mergeMs3 (0 :: os) (n :: new) = .error .attributeError := by
  simp [mergeMs3, mergeStep3, absorb3, bind, Except.bind, Except.map]

/-! ## C45 -/

/-- **C45.** `Interaction(name, integrals)` raises `TypeError` whatever is passed. -/
theorem C45_interaction_raises (name : Option String) (integrals : Option (List (Integral4 S))) :
    interactionInit name integrals = .error .typeError := rfl

/-- The refuted claim, in full: there is no list of integrals which `Interaction` keeps (merged). -/
theorem C45_keeps_nothing (name : Option String) (l : List (Integral4 S)) :
    interactionInit name (some l) ≠ .ok (dedup l) := by
  rw [C45_interaction_raises]
  exact fun h => by cases h

end

/-- Two integrals for the same scattering with stackable elements are merged into one. -/
example (Q : ℕ → Fin 4 → ℝ) (m : ℕ → ℝ) (r : List (Item (Fin 3))) :
    groupAmp ⟨0, r, []⟩ (dedup [⟨0, r, [⟨1, 0, 0, ⟨0, 1, 2, 3⟩⟩]⟩, ⟨0, r, [⟨2, 0, 0, ⟨2, 3, 0, 1⟩⟩]⟩]) Q m =
      3 * mink (Q 0) (Q 1) * mink (Q 2) (Q 3) := by
  have k : ∀ ms, SameKey (⟨0, r, []⟩ : Integral4 (Fin 3)) ⟨0, r, ms⟩ := fun _ => SameKey.refl _
  rw [C44_amplitude _ (by simp), groupAmp_cons, groupAmp_cons, if_pos (k _), if_pos (k _)]
  simp [groupAmp, sumAmp, M4.amp, ampAt]
  ring

end PyBBN
