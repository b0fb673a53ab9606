import Verif.Model.Integration
/-!
# Two runs of the momentum loop side by side

Two loops over the same momenta, with the same limits and the same schedule but different quadratures: what holds
between the two quadratures at every admissible state of a thread holds between the entries of the two results.
-/
namespace PyBBN

section
variable (lim : ℝ → ℝ × ℝ → (ℝ × ℝ) × Bool) (q1 q2 : ℝ → ℝ → ℝ → Except Err ℝ) (ps : List ℝ)
  (Inv : ℝ × ℝ → Prop) (R : ℝ → ℝ → ℝ → Prop)

/-- Entries of two results of a thread: same index, related values. -/
def PairedEntry (x y : ℕ × Except Err ℝ) : Prop :=
  x.1 = y.1 ∧ ∀ p0, ps[x.1]? = some p0 → ∀ a b, x.2 = .ok a → y.2 = .ok b → R p0 a b

variable (h0 : ∀ p ∈ ps, R p 0 0) (hinv : ∀ p ∈ ps, ∀ st, Inv st → Inv (lim p st).1)
  (hq : ∀ p ∈ ps, ∀ st, Inv st → (lim p st).2 = true → ∀ a b,
    q1 p (lim p st).1.1 (lim p st).1.2 = .ok a → q2 p (lim p st).1.1 (lim p st).1.2 = .ok b → R p a b)
include h0 hinv hq

theorem runThread_paired : ∀ (t : List ℕ) (st : ℝ × ℝ), Inv st →
    List.Forall₂ (PairedEntry ps R) (runThread lim q1 ps st t) (runThread lim q2 ps st t)
  | [], _, _ => .nil
  | i :: rest, st, hst => by
    unfold runThread
    cases hi : ps[i]? with
    | none =>
      refine .cons ⟨rfl, ?_⟩ (runThread_paired rest st hst)
      intro p0 hp; rw [hi] at hp; cases hp
    | some p0 =>
      have hmem : p0 ∈ ps := List.mem_of_getElem? hi
      refine .cons ⟨rfl, ?_⟩ (runThread_paired rest _ (hinv p0 hmem st hst))
      intro p' hp' a b ha hb
      rw [hi] at hp'; cases hp'
      by_cases hg : (lim p0 st).2 = true
      · simp only [hg, if_true] at ha hb
        exact hq p0 hmem st hst hg a b ha hb
      · simp only [hg] at ha hb
        cases ha; cases hb
        exact h0 p0 hmem

omit h0 hinv hq in
theorem lookup_paired (i : ℕ) (p0 : ℝ) (hp : ps[i]? = some p0) (hz : R p0 0 0) :
    ∀ {l l' : List (ℕ × Except Err ℝ)}, List.Forall₂ (PairedEntry ps R) l l' → ∀ a b,
      (l.lookup i).getD (.ok 0) = .ok a → (l'.lookup i).getD (.ok 0) = .ok b → R p0 a b
  | _, _, .nil, a, b, ha, hb => by
    cases ha; cases hb; exact hz
  | (j, v) :: l, (k, w) :: l', .cons h t, a, b, ha, hb => by
    obtain ⟨e, h⟩ := h
    simp only at e
    subst e
    simp only [List.lookup_cons] at ha hb
    by_cases hji : i = j
    · subst hji
      simp only [BEq.rfl, Option.getD_some] at ha hb
      exact h p0 hp a b ha hb
    · have : (i == j) = false := by simpa using hji
      simp only [this] at ha hb
      exact lookup_paired i p0 hp hz t a b ha hb

omit h0 hinv hq in
theorem forall2_flatten {α β : Type*} {S : α → β → Prop} : ∀ {l : List (List α)} {l' : List (List β)},
    List.Forall₂ (List.Forall₂ S) l l' → List.Forall₂ S l.flatten l'.flatten
  | _, _, .nil => .nil
  | _, _, .cons h t => by
    simp only [List.flatten_cons]
    exact List.rel_append h (forall2_flatten t)

/-- What the two quadratures satisfy pointwise, the two arrays satisfy entry by entry, whatever the schedule. -/
theorem parallelLoop_paired (st : ℝ × ℝ) (hst : Inv st) (sched : List (List ℕ)) (A B : List ℝ)
    (hA : (parallelLoop lim q1 ps st sched).mapM id = .ok A)
    (hB : (parallelLoop lim q2 ps st sched).mapM id = .ok B) :
    A.length = ps.length ∧ B.length = ps.length ∧
      ∀ (i : ℕ) (hi : i < ps.length) (ha : i < A.length) (hb : i < B.length), R ps[i] A[i] B[i] := by
  have key : ∀ (l : List (Except Err ℝ)) (X : List ℝ), l.mapM id = .ok X → l = X.map .ok := by
    intro l
    induction l with
    | nil => intro X h; cases h; rfl
    | cons v l ih =>
      intro X h
      simp only [List.mapM_cons, bind, Except.bind, id] at h
      cases v with
      | error e => simp at h
      | ok a =>
        simp only [pure, Except.pure] at h
        cases hl : List.mapM id l with
        | error e => rw [hl] at h; simp at h
        | ok Y =>
          rw [hl] at h
          simp only [Except.ok.injEq] at h
          subst h
          rw [ih Y hl]; rfl
  have eA := key _ _ hA
  have eB := key _ _ hB
  have lA : A.length = ps.length := by
    have := congrArg List.length eA
    simpa [parallelLoop] using this.symm
  have lB : B.length = ps.length := by
    have := congrArg List.length eB
    simpa [parallelLoop] using this.symm
  refine ⟨lA, lB, ?_⟩
  intro i hi ha hb
  have gA := congrArg (fun l : List (Except Err ℝ) => l[i]?) eA
  have gB := congrArg (fun l : List (Except Err ℝ) => l[i]?) eB
  simp only [parallelLoop, List.getElem?_map, List.getElem?_range hi, Option.map_some,
    List.getElem?_eq_getElem ha, Option.some.injEq] at gA
  simp only [parallelLoop, List.getElem?_map, List.getElem?_range hi, Option.map_some,
    List.getElem?_eq_getElem hb, Option.some.injEq] at gB
  refine lookup_paired ps R i ps[i] (List.getElem?_eq_getElem hi) (h0 _ (List.getElem_mem hi)) ?_ _ _ gA gB
  apply forall2_flatten
  rw [List.forall₂_map_left_iff, List.forall₂_map_right_iff]
  exact List.forall₂_same.mpr fun t _ => runThread_paired lim q1 q2 ps Inv R h0 hinv hq t st hst

end

/-- A successful `mapM` entry by entry. -/
theorem mapM_entries {α β : Type*} (g : α → Except Err β) : ∀ (l : List α) (o : List β), l.mapM g = .ok o →
    o.length = l.length ∧ ∀ (i : ℕ) (hi : i < l.length) (ho : i < o.length), g l[i] = .ok o[i]
  | [], o, h => by cases h; exact ⟨rfl, fun i hi => by simp at hi⟩
  | x :: l, o, h => by
    simp only [List.mapM_cons, bind, Except.bind] at h
    cases hx : g x with
    | error e => rw [hx] at h; cases h
    | ok a =>
      rw [hx] at h
      simp only at h
      cases hl : List.mapM g l with
      | error e => rw [hl] at h; cases h
      | ok b =>
        rw [hl] at h
        simp only [pure, Except.pure, Except.ok.injEq] at h
        subst h
        obtain ⟨e, ih⟩ := mapM_entries g l b hl
        refine ⟨by simp [e], ?_⟩
        intro i hi ho
        cases i with
        | zero => exact hx
        | succ i => exact ih i (by simpa using hi) (by simpa using ho)

/-- A loop whose quadratures succeed returns, if the schedule names only existing iterations. -/
theorem parallelLoop_returns (lim : ℝ → ℝ × ℝ → (ℝ × ℝ) × Bool) (q : ℝ → ℝ → ℝ → Except Err ℝ) (ps : List ℝ)
    (hq : ∀ p ∈ ps, ∀ a b, ∃ v, q p a b = .ok v) (st : ℝ × ℝ) (sched : List (List ℕ))
    (hs : ∀ t ∈ sched, ∀ i ∈ t, i < ps.length) : ∃ A, (parallelLoop lim q ps st sched).mapM id = .ok A := by
  have run : ∀ (t : List ℕ) (st : ℝ × ℝ), (∀ i ∈ t, i < ps.length) → ∀ e ∈ runThread lim q ps st t, ∃ v, e.2 = .ok v := by
    intro t
    induction t with
    | nil => intro st _ e he; simp [runThread] at he
    | cons i t ih =>
      intro st hi e he
      unfold runThread at he
      have hl : i < ps.length := hi i (by simp)
      rw [List.getElem?_eq_getElem hl] at he
      rcases List.mem_cons.mp he with rfl | he
      · dsimp only
        split_ifs
        · exact hq _ (List.getElem_mem hl) _ _
        · exact ⟨0, rfl⟩
      · exact ih _ (fun j hj => hi j (List.mem_cons_of_mem _ hj)) e he
  have look : ∀ (i : ℕ) (l : List (ℕ × Except Err ℝ)), (∀ e ∈ l, ∃ v, e.2 = .ok v) →
      ∃ v, (l.lookup i).getD (.ok 0) = .ok v := by
    intro i l
    induction l with
    | nil => intro _; exact ⟨0, rfl⟩
    | cons x l ih =>
      intro h
      obtain ⟨j, w⟩ := x
      simp only [List.lookup_cons]
      split
      · exact h (j, w) (by simp)
      · exact ih fun e he => h e (List.mem_cons_of_mem _ he)
  have all : ∀ e ∈ parallelLoop lim q ps st sched, ∃ v, e = .ok v := by
    intro e he
    unfold parallelLoop at he
    obtain ⟨i, -, rfl⟩ := List.mem_map.mp he
    apply look
    intro e he
    obtain ⟨l, hl, he⟩ := List.mem_flatten.mp he
    obtain ⟨t, ht, rfl⟩ := List.mem_map.mp hl
    exact run t st (hs t ht) e he
  revert all
  generalize parallelLoop lim q ps st sched = l
  intro all
  induction l with
  | nil => exact ⟨[], rfl⟩
  | cons x l ih =>
    obtain ⟨A, hA⟩ := ih fun e he => all e (List.mem_cons_of_mem _ he)
    obtain ⟨v, rfl⟩ := all x (by simp)
    refine ⟨v :: A, ?_⟩
    simp only [List.mapM_cons, hA, id, bind, Except.bind, pure, Except.pure]

end PyBBN
