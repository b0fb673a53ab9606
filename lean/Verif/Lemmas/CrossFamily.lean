import Verif.Lemmas.CrossAmpSM
/-!
# Families of generated integrals
-/
namespace PyBBN

section
variable {S : Type*} [DecidableEq S] {A : LibAttr S}

theorem absorb_elems (G : M4 → Prop) (hG : ∀ o n : M4, G o → G (o.iadd n)) (os : List M4) (n : M4) (h : ∀ o ∈ os, G o) :
    ∀ os', absorb os n = some os' → (∀ o ∈ os', G o) ∧ os' ≠ [] := by
  induction os with
  | nil => intro os' h; simp [absorb] at h
  | cons o os ih =>
    intro os' e
    have h0 : G o := h o (List.mem_cons_self ..)
    have h1 : ∀ o ∈ os, G o := fun o ho => h o (List.mem_cons_of_mem _ ho)
    unfold absorb at e
    have done : some (o.iadd n :: os) = some os' → (∀ o ∈ os', G o) ∧ os' ≠ [] := by
      intro e
      obtain rfl := Option.some.inj e
      refine ⟨?_, List.cons_ne_nil _ _⟩
      intro x hx
      rcases List.mem_cons.mp hx with rfl | hx
      · exact hG o n h0
      · exact h1 x hx
    by_cases hK : o.K ≠ 0
    · rw [if_pos hK] at e; exact done e
    · rw [if_neg hK] at e
      by_cases hs : o.stackable n = true
      · rw [if_pos hs] at e; exact done e
      · rw [if_neg hs] at e
        cases hq : absorb os n with
        | none => rw [hq] at e; simp at e
        | some q =>
          rw [hq] at e
          obtain rfl := Option.some.inj e
          refine ⟨?_, List.cons_ne_nil _ _⟩
          intro x hx
          rcases List.mem_cons.mp hx with rfl | hx
          · exact h0
          · exact (ih h1 q hq).1 x hx

theorem mergeMs_elems (G : M4 → Prop) (hG : ∀ o n : M4, G o → G (o.iadd n)) (old new : List M4) (h1 : ∀ o ∈ old, G o)
    (h2 : ∀ o ∈ new, G o) (hne : old ≠ []) : (∀ o ∈ mergeMs old new, G o) ∧ mergeMs old new ≠ [] := by
  have gen : ∀ (new : List M4) (st : List M4 × List M4), (∀ o ∈ new, G o) → (∀ o ∈ st.1, G o) → (∀ o ∈ st.2, G o) → st.1 ≠ [] →
      (∀ o ∈ (new.foldl mergeStep st).1, G o) ∧ (∀ o ∈ (new.foldl mergeStep st).2, G o) ∧ (new.foldl mergeStep st).1 ≠ [] := by
    intro new
    induction new with
    | nil => intro st _ a b c; exact ⟨a, b, c⟩
    | cons n new ih =>
      intro st hn a b c
      rw [List.foldl_cons]
      have hn0 : G n := hn n (List.mem_cons_self ..)
      have hn1 : ∀ o ∈ new, G o := fun o ho => hn o (List.mem_cons_of_mem _ ho)
      cases hq : absorb st.1 n with
      | none =>
        have e : mergeStep st n = (st.1, st.2 ++ [n]) := by unfold mergeStep; rw [hq]
        rw [e]
        refine ih _ hn1 a ?_ c
        intro o ho
        rcases List.mem_append.mp ho with ho | ho
        · exact b o ho
        · rw [List.mem_singleton.mp ho]; exact hn0
      | some q =>
        have e : mergeStep st n = (q, st.2) := by unfold mergeStep; rw [hq]
        rw [e]
        obtain ⟨q1, q2⟩ := absorb_elems G hG st.1 n a q hq
        exact ih _ hn1 q1 b q2
  obtain ⟨a, b, c⟩ := gen new (old, []) h2 h1 (by simp) hne
  unfold mergeMs
  refine ⟨?_, fun h => c (List.append_eq_nil_iff.mp h).1⟩
  intro o ho
  rcases List.mem_append.mp ho with ho | ho
  · exact a o ho
  · exact b o ho

theorem dedup_elems (G : M4 → Prop) (hG : ∀ o n : M4, G o → G (o.iadd n)) (l : List (Integral4 S))
    (h : ∀ i ∈ l, (∀ x ∈ i.Ms, G x) ∧ i.Ms ≠ []) : ∀ i ∈ dedup l, (∀ x ∈ i.Ms, G x) ∧ i.Ms ≠ [] := by
  have one : ∀ (acc : List (Integral4 S)) (n : Integral4 S), ((∀ x ∈ n.Ms, G x) ∧ n.Ms ≠ []) →
      (∀ i ∈ acc, (∀ x ∈ i.Ms, G x) ∧ i.Ms ≠ []) → ∀ i ∈ dedupAppend acc n, (∀ x ∈ i.Ms, G x) ∧ i.Ms ≠ [] := by
    intro acc n hn
    induction acc with
    | nil =>
      intro _ i hi
      unfold dedupAppend at hi
      rw [List.mem_singleton.mp hi]; exact hn
    | cons o acc ih =>
      intro ha i hi
      unfold dedupAppend at hi
      obtain ⟨o1, o2⟩ := ha o (List.mem_cons_self ..)
      split_ifs at hi
      · rcases List.mem_cons.mp hi with rfl | hi
        · exact mergeMs_elems G hG o.Ms n.Ms o1 hn.1 o2
        · exact ha i (List.mem_cons_of_mem _ hi)
      · rcases List.mem_cons.mp hi with rfl | hi
        · exact ⟨o1, o2⟩
        · exact ih (fun j hj => ha j (List.mem_cons_of_mem _ hj)) i hi
  have gen : ∀ (l acc : List (Integral4 S)), (∀ i ∈ l, (∀ x ∈ i.Ms, G x) ∧ i.Ms ≠ []) →
      (∀ i ∈ acc, (∀ x ∈ i.Ms, G x) ∧ i.Ms ≠ []) → ∀ i ∈ l.foldl dedupAppend acc, (∀ x ∈ i.Ms, G x) ∧ i.Ms ≠ [] := by
    intro l
    induction l with
    | nil => intro acc _ h; exact h
    | cons n l ih =>
      intro acc h1 h2
      exact ih _ (fun i hi => h1 i (List.mem_cons_of_mem _ hi)) (one acc n (h1 n (List.mem_cons_self ..)) h2)
  exact gen l [] h (by simp)

/-- An element whose order uses every particle once, without a constant term. -/
def Ordered (x : M4) : Prop := x.K = 0 ∧ [x.order.a, x.order.b, x.order.c, x.order.d].Perm (List.range 4)

theorem normOrder_perm (o : Ord4) : [(normOrder o).a, (normOrder o).b, (normOrder o).c, (normOrder o).d].Perm
    [o.a, o.b, o.c, o.d] := by
  unfold normOrder
  dsimp only
  have pr : ∀ u v : ℕ, [min u v, max u v].Perm [u, v] := by
    intro u v
    rcases le_total u v with h | h
    · rw [min_eq_left h, max_eq_right h]
    · rw [min_eq_right h, max_eq_left h]; exact List.Perm.swap _ _ _
  exact (pr o.a o.b).append (pr o.c o.d)

theorem relabel_ordered (r : List (Item S)) (hr : (r.map (·.index)).Perm (List.range 4)) (x y : M4) (hx : Ordered x)
    (h : relabel r x = .ok y) : Ordered y := by
  refine ⟨(relabel_K r x y h).trans hx.1, ?_⟩
  have hmem : ∀ v ∈ [x.order.a, x.order.b, x.order.c, x.order.d], v ∈ r.map (·.index) :=
    fun v hv => hr.mem_iff.mpr (hx.2.mem_iff.mp hv)
  obtain ⟨ja, xa, pa, ga, ia⟩ := posOf_spec r x.order.a (hmem _ (by simp))
  obtain ⟨jb, xb, pb, gb, ib⟩ := posOf_spec r x.order.b (hmem _ (by simp))
  obtain ⟨jc, xc, pc, gc, ic⟩ := posOf_spec r x.order.c (hmem _ (by simp))
  obtain ⟨jd, xd, pd, gd, id⟩ := posOf_spec r x.order.d (hmem _ (by simp))
  have hy : relabel r x = .ok { x with
      order := normOrder ⟨ja, jb, jc, jd⟩,
      K2 := if xor xa.crossed xb.crossed then x.K2 * (-1) else x.K2 } := by
    unfold relabel
    rw [pa, pb, pc, pd]
    show M4.applyOrder x ⟨ja, jb, jc, jd⟩ r = _
    unfold M4.applyOrder
    dsimp only
    rw [ga, gb]
  obtain rfl := Except.ok.inj (hy.symm.trans h)
  refine (normOrder_perm _).trans ?_
  have hlen : r.length = 4 := by simpa using hr.length_eq
  have hnd : [x.order.a, x.order.b, x.order.c, x.order.d].Nodup := hx.2.nodup_iff.mpr List.nodup_range
  have hmap : [ja, jb, jc, jd].map (fun j => (r[j]?).map (·.index)) =
      [x.order.a, x.order.b, x.order.c, x.order.d].map some := by
    simp only [List.map_cons, List.map_nil, ga, gb, gc, gd, Option.map_some, ia, ib, ic, id]
  have hnd' : [ja, jb, jc, jd].Nodup := by
    apply List.Nodup.of_map (f := fun j => (r[j]?).map (·.index))
    rw [hmap]
    exact hnd.map (Option.some_injective _)
  have hlt : ∀ j ∈ [ja, jb, jc, jd], j ∈ List.range 4 := by
    intro j hj
    rw [List.mem_range, ← hlen]
    simp only [List.mem_cons, List.not_mem_nil, or_false] at hj
    rcases hj with rfl | rfl | rfl | rfl
    · exact (List.getElem?_eq_some_iff.mp ga).1
    · exact (List.getElem?_eq_some_iff.mp gb).1
    · exact (List.getElem?_eq_some_iff.mp gc).1
    · exact (List.getElem?_eq_some_iff.mp gd).1
  exact (List.subperm_of_subset hnd' hlt).perm_of_length_le (by simp)

/-- What the generator guarantees for an integral whose species are in a set. -/
structure Sound (A : LibAttr S) (sp : S → Prop) (i : Integral4 S) : Prop where
  shape : WellFormed A.toAttr i.reaction
  four : i.reaction.length = 4
  head : i.reaction.head?.map (·.specie) = some i.particle
  species : ∀ x ∈ i.reaction, sp x.specie
  elems : ∀ x ∈ i.Ms, Ordered x
  some : i.Ms ≠ []

theorem generated_sound (hinj : Function.Injective A.name) (sp : S → Prop) (p : Fin 4 → S) (hp : ∀ j, sp (p j)) (a : Fin 4 → Bool)
    (Ms : List M4) (hM : ∀ x ∈ Ms, Ordered x) (hne : Ms ≠ []) (out : List (Integral4 S))
    (hout : crossGenerating A.toAttr [p 0, p 1] [p 2, p 3] [a 0, a 1] [a 2, a 3] Ms = .ok out) :
    ∀ i ∈ out, Sound A sp i := by
  obtain ⟨rs, ints, out', g1, g2, -, g3, g4, -⟩ := generated_ints A.toAttr [p 0, p 1] [p 2, p 3] [a 0, a 1] [a 2, a 3]
    rfl rfl Ms hM
  obtain rfl : out' = out := Except.ok.inj (g2.symm.trans hout)
  obtain ⟨rs', o1, o2, -⟩ := generated_owner A (decl4 p a Ms) rfl rfl Ms hM out' g2
  obtain rfl : rs' = rs := Except.ok.inj (o1.symm.trans g1)
  have hWF : ∀ r ∈ rs', WellFormed A.toAttr r := by
    obtain ⟨rs'', c1, -, c3⟩ := C42_exactly_the_crossings A.toAttr hinj [p 0, p 1] [p 2, p 3] [a 0, a 1] [a 2, a 3] rfl rfl
    obtain rfl : rs'' = rs' := Except.ok.inj (c1.symm.trans g1)
    exact fun r hr => ((c3 r).mp hr).2
  have hidx : ∀ r ∈ rs', (r.map fun x => (x.index, x.specie)).Perm ((List.range 4).zip [p 0, p 1, p 2, p 3]) := fun r hr =>
    C41_legs_once A.toAttr [p 0, p 1] [p 2, p 3] [a 0, a 1] [a 2, a 3] rfl rfl rs' g1 r hr
  have hints : ∀ i ∈ ints, (∀ x ∈ i.Ms, Ordered x) ∧ i.Ms ≠ [] := by
    intro i hi
    obtain ⟨r, hr, e1, -, e3⟩ := forall2_right g3 i hi
    constructor
    · intro y hy
      obtain ⟨x, hx, hxy⟩ := forall2_right e3 y hy
      refine relabel_ordered r ?_ x y (hM x hx) hxy
      have := (hidx r hr).map Prod.fst
      rw [List.map_map] at this
      exact this
    · intro h
      rw [h] at e3
      cases e3
      exact hne rfl
  have hded := dedup_elems Ordered (fun o n h => h) ints hints
  rw [← g4] at hded
  intro i hi
  obtain ⟨q1, q2⟩ := o2 i hi
  have hpi := hidx _ q1
  exact
    { shape := hWF _ q1
      four := by simpa using hpi.length_eq
      head := q2
      species := by
        intro x hx
        have hmem : (x.index, x.specie) ∈ (List.range 4).zip [p 0, p 1, p 2, p 3] :=
          hpi.mem_iff.mp (List.mem_map.mpr ⟨x, hx, rfl⟩)
        have := (List.of_mem_zip hmem).2
        simp only [List.mem_cons, List.not_mem_nil, or_false] at this
        rcases this with h | h | h | h <;> rw [h] <;> exact hp _
      elems := (hded i hi).1
      some := (hded i hi).2 }

/-- All integrals of the Standard Model. -/
theorem library_sound (c : LibConst) (hinj : Function.Injective A.name) (leptons neutrinos : List S) :
    (∀ o, (neutrinoInteractions A c leptons neutrinos).mapM (Decl.integrals A) = .ok o →
      ∀ i ∈ o.flatten, Sound A (· ∈ neutrinos ++ leptons) i) ∧
    (∀ o, (leptonInteractions A c leptons neutrinos).mapM (Decl.integrals A) = .ok o →
      ∀ i ∈ o.flatten, Sound A (· ∈ neutrinos ++ leptons) i) := by
  have gen : ∀ (ds : List (Decl S)) (sp : S → Prop), (∀ d ∈ ds, ∀ out, d.integrals A = .ok out → ∀ i ∈ out, Sound A sp i) →
      ∀ o, ds.mapM (Decl.integrals A) = .ok o → ∀ i ∈ o.flatten, Sound A sp i := by
    intro ds sp
    induction ds with
    | nil =>
      intro _ o e
      obtain rfl : [] = o := Except.ok.inj e
      simp
    | cons d ds ih =>
      intro h o e
      rw [List.mapM_cons] at e
      cases h1 : d.integrals A with
      | error x => rw [h1] at e; simp [bind, Except.bind] at e
      | ok o1 =>
        cases h2 : ds.mapM (Decl.integrals A) with
        | error x => rw [h1, h2] at e; simp [bind, Except.bind] at e
        | ok o2 =>
          rw [h1, h2] at e
          obtain rfl : o1 :: o2 = o := Except.ok.inj e
          intro i hi
          rw [List.flatten_cons] at hi
          rcases List.mem_append.mp hi with hi | hi
          · exact h d (List.mem_cons_self ..) o1 h1 i hi
          · exact ih (fun x hx => h x (List.mem_cons_of_mem _ hx)) o2 h2 i hi
  constructor
  · apply gen
    intro d hd out e
    unfold neutrinoInteractions at hd
    rcases List.mem_append.mp hd with hd | hd
    · obtain ⟨x, hx, rfl⟩ := List.mem_map.mp hd
      obtain ⟨x1, x2⟩ := combRepl_mem _ _ hx
      refine generated_sound hinj _ ![x.1, x.2, x.1, x.2] ?_ (fun _ => false) _ ?_ (List.cons_ne_nil _ _) out e
      · intro j
        fin_cases j
        · exact List.mem_append_left _ x1
        · exact List.mem_append_left _ x2
        · exact List.mem_append_left _ x1
        · exact List.mem_append_left _ x2
      · intro y hy
        rw [List.mem_singleton.mp hy]
        exact weakM_ok _ _ _ (by rw [normOrder_lits.1]; decide)
    · obtain ⟨l, hl, hd⟩ := List.mem_flatMap.mp hd
      obtain ⟨n, hn, rfl⟩ := List.mem_map.mp hd
      refine generated_sound hinj _ ![n, n, l, l] ?_ ![false, true, false, true] _ ?_ (List.cons_ne_nil _ _) out e
      · intro j
        fin_cases j
        · exact List.mem_append_left _ hn
        · exact List.mem_append_left _ hn
        · exact List.mem_append_right _ hl
        · exact List.mem_append_right _ hl
      · intro y hy
        simp only [List.mem_cons, List.not_mem_nil, or_false] at hy
        rcases hy with rfl | rfl | rfl
        · exact weakM_ok _ _ _ (by rw [normOrder_lits.2.1]; decide)
        · exact weakM_ok _ _ _ (by rw [normOrder_lits.2.2.1]; decide)
        · exact weakM_ok _ _ _ (by rw [normOrder_lits.2.2.2]; decide)
  · apply gen
    intro d hd out e
    unfold leptonInteractions at hd
    obtain ⟨l, hl, hd⟩ := List.mem_flatMap.mp hd
    obtain ⟨n, hn, hd⟩ := List.mem_flatMap.mp hd
    split_ifs at hd
    · obtain ⟨l', hl', hd⟩ := List.mem_flatMap.mp hd
      obtain ⟨n', hn', hd⟩ := List.mem_flatMap.mp hd
      split_ifs at hd
      · rw [List.mem_singleton.mp hd] at e
        refine generated_sound hinj _ ![l, l', n, n'] ?_ ![false, true, false, true] _ ?_ (List.cons_ne_nil _ _) out e
        · intro j
          fin_cases j
          · exact List.mem_append_right _ hl
          · exact List.mem_append_right _ (List.mem_filter.mp hl').1
          · exact List.mem_append_left _ hn
          · exact List.mem_append_left _ (List.mem_filter.mp hn').1
        · intro y hy
          rw [List.mem_singleton.mp hy]
          exact weakM_ok _ _ _ (by rw [normOrder_lits.2.1]; decide)
      · simp at hd
    · simp at hd

end

end PyBBN
