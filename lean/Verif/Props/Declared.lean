import Verif.Props.TermsTotal
/-!
# C101 (continued): the kept integrals are those of the declarations
-/
namespace PyBBN

set_option linter.unusedSectionVars false

section
variable {S : Type*} [DecidableEq S] (A : LibAttr S) (c : LibConst)

open Classical in
/-- The integrals `out` are some of the integrals generated by the declarations, unchanged and in the same order, and all
decays of `N` are among them. -/
def TakenFrom (N : S) (ds : List (Decl S)) (out : List (Integral4 S)) : Prop :=
  ∃ all, ds.mapM (Decl.integrals A) = .ok all ∧ out.Sublist all.flatten ∧
    out.filter (fun i => IsDecayOf N i) = all.flatten.filter fun i => IsDecayOf N i

variable {A}

theorem TakenFrom.nil (N : S) : TakenFrom A N [] [] := ⟨[], rfl, List.Sublist.slnil, rfl⟩

theorem TakenFrom.append {N : S} {ds ds' : List (Decl S)} {o o' : List (Integral4 S)} (h : TakenFrom A N ds o)
    (h' : TakenFrom A N ds' o') : TakenFrom A N (ds ++ ds') (o ++ o') := by
  obtain ⟨x, x1, x2, x3⟩ := h
  obtain ⟨y, y1, y2, y3⟩ := h'
  refine ⟨x ++ y, ?_, ?_, ?_⟩
  · rw [List.mapM_append, x1, y1]; rfl
  · rw [List.flatten_append]; exact x2.append y2
  · rw [List.flatten_append, List.filter_append, List.filter_append, x3, y3]

theorem TakenFrom.mapM {N : S} {J : Type*} (g : J → Except Err (List (Integral4 S))) (D : J → List (Decl S)) (l : List J)
    (h : ∀ j ∈ l, ∃ o, g j = .ok o ∧ TakenFrom A N (D j) o) : ∃ xs, l.mapM g = .ok xs ∧ TakenFrom A N (l.flatMap D) xs.flatten := by
  induction l with
  | nil => exact ⟨[], rfl, TakenFrom.nil N⟩
  | cons j l ih =>
    obtain ⟨o, h1, h2⟩ := h j (List.mem_cons_self ..)
    obtain ⟨xs, h3, h4⟩ := ih fun k hk => h k (List.mem_cons_of_mem _ hk)
    refine ⟨o :: xs, ?_, ?_⟩
    · rw [List.mapM_cons, h1, h3]; rfl
    · rw [List.flatten_cons, List.flatMap_cons]; exact h2.append h4

/-- Two declarations, of each of which a part is kept. -/
theorem takenFrom_pair (N : S) (d0 d1 : Decl S) (i0 i1 o0 o1 : List (Integral4 S)) (e0 : d0.integrals A = .ok i0)
    (e1 : d1.integrals A = .ok i1) (p0 p1 : Integral4 S → Bool) (h0 : o0 = i0.filter p0) (h1 : o1 = i1.filter p1)
    (k0 : ∀ i ∈ i0, IsDecayOf N i → p0 i = true) (k1 : ∀ i ∈ i1, IsDecayOf N i → p1 i = true) :
    TakenFrom A N [d0, d1] (o0 ++ o1) := by
  classical
  have keep : ∀ (l : List (Integral4 S)) (p : Integral4 S → Bool), (∀ i ∈ l, IsDecayOf N i → p i = true) →
      (l.filter p).filter (fun i => IsDecayOf N i) = l.filter fun i => IsDecayOf N i := by
    intro l p h
    rw [List.filter_filter]
    refine List.filter_congr fun i hi => ?_
    by_cases hd : IsDecayOf N i
    · simp [hd, h i hi hd]
    · simp [hd]
  refine ⟨[i0, i1], ?_, ?_, ?_⟩
  · rw [List.mapM_cons, e0, List.mapM_cons, e1]; rfl
  · rw [h0, h1]
    simpa using List.filter_sublist.append List.filter_sublist
  · rw [h0, h1, List.filter_append, keep _ _ k0, keep _ _ k1]
    simp

theorem takenFrom_scattering (hinj : Function.Injective A.name) (θ : ℝ) (N a b : S) (hm : A.majorana N = false)
    (ha : a ≠ N) (hb : b ≠ N) :
    ∃ out, keepScattering A c θ N a b = .ok out ∧ TakenFrom A N (sterileScattering c θ N a b) out := by
  set K1 : ℝ := if a = b then 2 else 1 with hK
  have m0 := sterile_ok c θ [(K1, 0, ⟨0, 1, 2, 3⟩)] (by simp; decide)
  have m1 := sterile_ok c θ [(K1, 0, ⟨2, 3, 0, 1⟩)] (by simp; decide)
  obtain ⟨i0, e0, -⟩ := integrals_allOf A hinj N b a b false false false false [sterileM c θ K1 0 ⟨0, 1, 2, 3⟩] m0
  have hno : ¬ HasIntegral A ⟨[a, b], [N, b], [false, false], [false, false], .four [sterileM c θ K1 0 ⟨2, 3, 0, 1⟩]⟩ N := by
    rw [C99_two_two]
    simp [ha.symm, hb.symm, hm]
  obtain ⟨i1, e1, n1⟩ := no_owner A ⟨[a, b], [N, b], [false, false], [false, false], .four [sterileM c θ K1 0 ⟨2, 3, 0, 1⟩]⟩
    rfl rfl _ rfl m1 N hno
  refine ⟨i0 ++ i1.filter fun i => headName A i ∉ i0.map (headName A), ?_, ?_⟩
  · unfold keepScattering sterileScattering pairOf
    simp only [bind, Except.bind, ← hK, e0, e1]
    rfl
  · exact takenFrom_pair N _ _ i0 i1 i0 _ e0 e1 (fun _ => true) _ (by simp) rfl (fun _ _ _ => rfl)
      fun i hi hd => absurd hd.1 (n1 i hi)

theorem takenFrom_NC (hinj : Function.Injective A.name) (θ gL : ℝ) (N a l : S) (ha : a ≠ N) (hl : l ≠ N) :
    ∃ out, keepNC A c θ gL N a l = .ok out ∧ TakenFrom A N (sterileNC c θ gL N a l) out := by
  set Ms := [sterileM c θ (4 * gL ^ 2) 0 ⟨0, 2, 1, 3⟩, sterileM c θ (4 * c.gR ^ 2) 0 ⟨0, 3, 1, 2⟩,
        sterileM c θ 0 (4 * c.gR * gL) ⟨2, 3, 0, 1⟩] with hMs
  have m0 : ∀ x ∈ Ms, x.K = 0 ∧ [x.order.a, x.order.b, x.order.c, x.order.d].Perm (List.range 4) := by
    intro x hx
    simp only [hMs, List.mem_cons, List.not_mem_nil, or_false] at hx
    rcases hx with rfl | rfl | rfl <;> exact sterileM_ok c _ _ _ _ (by decide)
  obtain ⟨i0, e0, -⟩ := integrals_allOf A hinj N a l l false true true false Ms m0
  have hno : ¬ HasIntegral A ⟨[N, a], [l, l], [true, false], [false, true], .four Ms⟩ N := by
    rw [C99_two_two]
    simp [ha.symm, hl.symm]
  obtain ⟨i1, e1, n1⟩ := no_owner A ⟨[N, a], [l, l], [true, false], [false, true], .four Ms⟩ rfl rfl Ms rfl m0 N hno
  have hd0 := headName_of A ⟨[N, a], [l, l], [false, true], [true, false], .four Ms⟩ rfl rfl _ rfl m0 i0 e0
  have red : keepNC A c θ gL N a l = (if A.name l = "Muon" ∨ A.name l = "Tau" then
      .ok (i0.filter (fun i => ¬ (headName A i ≠ some (A.name N) ∧ countLeft A i (A.name l) = 1)) ++
        (i1.filter (fun i => ¬ (headName A i ≠ some (A.name N) ∧ countLeft A i (A.name l) = 1))).filter
          fun i => headName A i ≠ some (A.name l)) else .ok (i0 ++ i1)) := by
    unfold keepNC sterileNC pairOf
    simp only [List.map_cons, List.map_nil, bind, Except.bind, ← hMs, e0, e1]
    split_ifs <;> rfl
  have hds : sterileNC c θ gL N a l = [⟨[N, a], [l, l], [false, true], [true, false], .four Ms⟩,
    ⟨[N, a], [l, l], [true, false], [false, true], .four Ms⟩] := rfl
  rw [red, hds]
  split_ifs
  · refine ⟨_, rfl, takenFrom_pair N _ _ i0 i1 _ _ e0 e1 _ _ rfl (List.filter_filter ..) ?_
      fun i hi hd => absurd hd.1 (n1 i hi)⟩
    intro i hi hd
    rw [hd0 i hi, hd.1]
    simp
  · exact ⟨_, rfl, takenFrom_pair N _ _ i0 i1 _ _ e0 e1 (fun _ => true) (fun _ => true) (by simp) (by simp)
      (fun _ _ _ => rfl) (fun _ _ _ => rfl)⟩

theorem takenFrom_CC (hinj : Function.Injective A.name) (θ : ℝ) (N a l l' : S) (ha : a ≠ N) (hl : l ≠ N) (hl' : l' ≠ N)
    (hn : l ≠ l') (hn' : a ≠ l') :
    ∃ out, keepCC A c θ N a l l' = .ok out ∧ TakenFrom A N (sterileCC c θ N a l l') out := by
  set Ms := [sterileM c θ 4 0 ⟨0, 2, 1, 3⟩] with hMs
  have m0 : ∀ x ∈ Ms, x.K = 0 ∧ [x.order.a, x.order.b, x.order.c, x.order.d].Perm (List.range 4) := by
    intro x hx
    rw [List.mem_singleton.mp hx]
    exact sterileM_ok c _ _ _ _ (by decide)
  obtain ⟨i0, e0, t0⟩ := integrals_allOf A hinj N a l' l false true true false Ms m0
  have hno : ¬ HasIntegral A ⟨[a, N], [l, l'], [false, true], [true, false], .four Ms⟩ N := by
    rw [C99_two_two]
    simp [ha.symm, hl.symm, hl'.symm]
  obtain ⟨i1, e1, n1⟩ := no_owner A ⟨[a, N], [l, l'], [false, true], [true, false], .four Ms⟩ rfl rfl Ms rfl m0 N hno
  obtain ⟨rs, r1, r2, -⟩ := generated_owner A ⟨[N, a], [l', l], [false, true], [true, false], .four Ms⟩ rfl rfl Ms m0 i0 e0
  refine ⟨i0.filter (fun i => namedSideSum A i (A.name l') (A.name N) = 0) ++
    i1.filter (fun i => namedSideSum A i (A.name l') (A.name N) = 0), ?_, ?_⟩
  · unfold keepCC sterileCC pairOf
    simp only [List.map_cons, List.map_nil, bind, Except.bind, ← hMs, e0, e1]
    rfl
  · refine takenFrom_pair N _ _ i0 i1 _ _ e0 e1 _ _ rfl rfl ?_ fun i hi hd => absurd hd.1 (n1 i hi)
    intro i hi hd
    obtain ⟨x, hx, -, e⟩ := (crossings_mem A hinj _ rfl rfl rs r1 i.reaction).mp (r2 i hi).1
    obtain ⟨f1, f2⟩ := crossWith_sides A _ (legs_side _ _ _ _) x hx
    have hsides : ∀ y ∈ i.reaction, y.side = -1 ∨ y.side = 1 := by
      obtain ⟨m1, m2⟩ := (mem_choices _ x).mp hx
      intro y hy
      rw [← e] at hy
      unfold crossWith at hy
      rcases List.mem_append.mp hy with hy | hy
      · rcases List.mem_cons.mp hy with rfl | hy
        · exact Or.inl (toSide_side A.toAttr (-1) _ (legs_side _ _ _ _ _ m1) (Or.inl rfl))
        · obtain ⟨z, hz, rfl⟩ := List.mem_map.mp ((sortItems_perm A.toAttr _).mem_iff.mp hy)
          exact Or.inl (toSide_side A.toAttr (-1) z (legs_side _ _ _ _ z (List.mem_of_mem_erase (m2.subset hz))) (Or.inl rfl))
      · obtain ⟨z, hz, rfl⟩ := List.mem_map.mp ((sortItems_perm A.toAttr _).mem_iff.mp hy)
        exact Or.inr (toSide_side A.toAttr 1 z (legs_side _ _ _ _ z (List.mem_of_mem_erase (List.mem_of_mem_filter hz))) (Or.inr rfl))
    have hL : ((speciesOn (-1) i.reaction : List S) : Multiset S) = {N} := by
      have hh := (r2 i hi).2
      rw [hd.1, ← e] at hh
      have hlen := hd.2
      rw [← e, f1, List.length_cons, Nat.add_eq_right, List.length_eq_zero_iff] at hlen
      have hsp : (toSide A.toAttr (-1) x.1).specie = N := by
        unfold crossWith at hh
        simpa using hh
      unfold speciesOn
      rw [← e, f1, hlen, List.map_cons, List.map_nil, hsp]
      rfl
    have hR : ((speciesOn 1 i.reaction : List S) : Multiset S) = {a, l', l} := by
      have := t0 i hi
      rw [hL] at this
      exact cancelN N _ _ this
    rw [decide_eq_true_eq, namedSideSum_class A hinj i i.particle l' N hl' {N} {a, l', l} ⟨rfl, hL, hR⟩ hsides]
    simp [Multiset.count_cons, Multiset.count_singleton, ha.symm, hl.symm, hl'.symm, hl', hn.symm, hn'.symm]

theorem product_flatMap {α β γ : Type*} (l : List α) (l' : List β) (f : α × β → List γ) :
    (l.product l').flatMap f = l.flatMap fun a => l'.flatMap fun b => f (a, b) := by
  change (l.flatMap fun a => l'.map (Prod.mk a)).flatMap f = _
  rw [List.flatMap_assoc]
  refine List.flatMap_congr fun a _ => ?_
  rw [List.flatMap_map]

/-- **C101 (declarations and integrals).** The integrals left by `sterile_leptons_interactions` are integrals of its
declarations, unchanged and in order, and every decay of a Dirac heavy neutrino is left. -/
theorem C101_taken_from_declarations (thetas : String → ℝ) (N : S) (neutrinos leptons : List S)
    (hinj : Function.Injective A.name) (hm : A.majorana N = false) (hn : N ∉ neutrinos) (hl : N ∉ leptons)
    (hap : ∀ a ∈ neutrinos, a ∉ leptons) :
    ∃ out, sterileLeptonIntegrals A c thetas N neutrinos leptons = .ok out ∧
      TakenFrom A N (sterileLeptons A c thetas N neutrinos leptons) out := by
  classical
  have ok_ite : ∀ (p : Prop) [Decidable p] (e : Except Err (List (Integral4 S))) (ds : List (Decl S))
      (_ : p → ∃ o, e = .ok o ∧ TakenFrom A N ds o),
      ∃ o, (if p then e else .ok []) = .ok o ∧ TakenFrom A N (if p then ds else []) o := by
    intro p _ e ds h
    by_cases hp : p
    · rw [if_pos hp, if_pos hp]; exact h hp
    · rw [if_neg hp, if_neg hp]; exact ⟨[], rfl, TakenFrom.nil N⟩
  obtain ⟨xs, x1, x2⟩ := TakenFrom.mapM (A := A) (N := N) (fun x : S × S => (if thetas (A.flavour x.1) ≠ 0 then
    keepScattering A c (thetas (A.flavour x.1)) N x.1 x.2 else .ok []))
    (fun x => if thetas (A.flavour x.1) ≠ 0 then sterileScattering c (thetas (A.flavour x.1)) N x.1 x.2 else [])
    (neutrinos.product neutrinos) (by
      rintro ⟨x, y⟩ hx
      obtain ⟨h1, h2⟩ := List.pair_mem_product.mp hx
      exact ok_ite _ _ _ fun _ => takenFrom_scattering c hinj _ N x y hm (fun e => hn (e ▸ h1)) fun e => hn (e ▸ h2))
  obtain ⟨ys, y1, y2⟩ := TakenFrom.mapM (A := A) (N := N) (fun x : S × S => keepLepton A c thetas N leptons x.1 x.2)
    (fun x => (if thetas (A.flavour x.2) ≠ 0 then
        sterileNC c (thetas (A.flavour x.2)) (couplingL A c x.1 x.2) N x.2 x.1 else []) ++
      (if 1 < leptons.length then (leptons.filter (· ≠ x.1)).flatMap fun otherLep =>
        if thetas (A.flavour x.1) ≠ 0 ∧ A.flavour x.2 = A.flavour otherLep then
          sterileCC c (thetas (A.flavour x.1)) N x.2 x.1 otherLep else [] else [])) (leptons.product neutrinos) (by
      rintro ⟨l, a⟩ hx
      obtain ⟨h1, h2⟩ := List.pair_mem_product.mp hx
      have haN : a ≠ N := fun e => hn (e ▸ h2)
      have hlN : l ≠ N := fun e => hl (e ▸ h1)
      obtain ⟨n, n1, n2⟩ := ok_ite (thetas (A.flavour a) ≠ 0) _ _ fun _ =>
        takenFrom_NC (A := A) c hinj (thetas (A.flavour a)) (couplingL A c l a) N a l haN hlN
      obtain ⟨zs, z1, z2⟩ := TakenFrom.mapM (A := A) (N := N) (fun o => (if thetas (A.flavour l) ≠ 0 ∧ A.flavour a = A.flavour o then
        keepCC A c (thetas (A.flavour l)) N a l o else .ok []))
        (fun o => if thetas (A.flavour l) ≠ 0 ∧ A.flavour a = A.flavour o then sterileCC c (thetas (A.flavour l)) N a l o else [])
        (if 1 < leptons.length then leptons.filter (· ≠ l) else []) (by
          intro o ho
          have ho' : o ∈ leptons ∧ o ≠ l := by
            split_ifs at ho
            · simpa using ho
            · simp at ho
          exact ok_ite _ _ _ fun _ => takenFrom_CC c hinj _ N a l o haN hlN (fun e => hl (e ▸ ho'.1)) ho'.2.symm
            fun e => hap a h2 (e ▸ ho'.1))
      refine ⟨n ++ zs.flatten, ?_, ?_⟩
      · unfold keepLepton
        dsimp only
        rw [n1]
        simp only [bind, Except.bind]
        rw [z1]
        rfl
      · refine n2.append ?_
        by_cases h : 1 < leptons.length
        · simp only [if_pos h] at z2 ⊢
          exact z2
        · simp only [if_neg h] at z2 ⊢
          exact z2)
  refine ⟨xs.flatten ++ ys.flatten, ?_, ?_⟩
  · unfold sterileLeptonIntegrals
    simp only [bind, Except.bind]
    rw [x1]
    dsimp only
    rw [y1]
    rfl
  · rw [product_flatMap] at x2 y2
    exact x2.append y2

example : ∃ out, sterileLeptonIntegrals termsAttr c (fun _ => 1) (0 : Fin 5) [1, 2] [4, 3] = .ok out ∧
    TakenFrom termsAttr 0 (sterileLeptons termsAttr c (fun _ => 1) 0 [1, 2] [4, 3]) out :=
  C101_taken_from_declarations c _ 0 _ _ termsAttr_inj rfl (by decide) (by decide) (by decide)

end
end PyBBN
