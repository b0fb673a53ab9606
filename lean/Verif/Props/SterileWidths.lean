import Verif.Props.Strength
/-!
# C101 (continued): the decays of a heavy neutrino into leptons, after the removal of integrals
-/
namespace PyBBN

set_option linter.unusedSectionVars false

section
variable {S : Type*} [DecidableEq S] (A : LibAttr S) (c : LibConst)

theorem perm4 (a b c d : ℕ) (h : [a, b, c, d] = [0, 1, 2, 3] ∨ [a, b, c, d] = [0, 2, 1, 3] ∨ [a, b, c, d] = [0, 3, 1, 2] ∨
    [a, b, c, d] = [2, 3, 0, 1]) : [a, b, c, d].Perm (List.range 4) := by
  rcases h with h | h | h | h <;> rw [h] <;> decide

open Classical in
/-- Strength of one declaration with four legs. -/
theorem strength_two_two (hinj : Function.Injective A.name) (p0 p1 p2 p3 : S) (a0 a1 a2 a3 : Bool) (Ms : List M4)
    (hM : ∀ x ∈ Ms, x.K = 0 ∧ [x.order.a, x.order.b, x.order.c, x.order.d].Perm (List.range 4))
    (N : S) (h1 : p1 ≠ N) (h2 : p2 ≠ N) (h3 : p3 ≠ N) (h0 : p0 = N) (ha : a0 = false) :
    ∃ out, (⟨[p0, p1], [p2, p3], [a0, a1], [a2, a3], .four Ms⟩ : Decl S).integrals A = .ok out ∧
      strength N out = if A.mass p1 + A.mass p2 + A.mass p3 < A.mass N then sumK1 Ms else 0 := by
  subst h0 ha
  obtain ⟨out, o1, o2⟩ := strength_generated A hinj (⟨[p0, p1], [p2, p3], [false, a1], [a2, a3], .four Ms⟩ : Decl S) rfl rfl
    (by simp) Ms hM p0
  refine ⟨out, o1, ?_⟩
  rw [o2]
  have hl : legs [p0, p1] [p2, p3] [false, a1] [a2, a3] =
    [⟨-1, p0, false, 0, false⟩, ⟨-1, p1, a1, 1, false⟩, ⟨1, p2, a2, 2, false⟩, ⟨1, p3, a3, 3, false⟩] := rfl
  dsimp only
  rw [hl]
  have hm : CanDecay A [⟨-1, p0, false, 0, false⟩, ⟨-1, p1, a1, 1, false⟩, ⟨1, p2, a2, 2, false⟩, ⟨1, p3, a3, 3, false⟩]
      ⟨-1, p0, false, 0, false⟩ ↔ A.mass p1 + A.mass p2 + A.mass p3 < A.mass p0 := by
    unfold CanDecay CanLead
    simp [List.erase_cons_head, add_assoc]
  rw [List.filter_cons, List.filter_cons_of_neg (by simp [h1]), List.filter_cons_of_neg (by simp [h2]),
    List.filter_cons_of_neg (by simp [h3]), List.filter_nil]
  by_cases h : A.mass p1 + A.mass p2 + A.mass p3 < A.mass p0
  · rw [if_pos h, if_pos (by simp [hm, h])]; simp
  · rw [if_neg h, if_neg (by simp [hm, h])]; simp

/-- No integral of `N` in a declaration where no leg of `N` can lead. -/
theorem no_owner (d : Decl S) (h0 : d.left.length = d.antiL.length) (h1 : d.right.length = d.antiR.length)
    (Ms : List M4) (hd : d.amp = .four Ms) (hM : ∀ x ∈ Ms, x.K = 0 ∧ [x.order.a, x.order.b, x.order.c, x.order.d].Perm
      (List.range (d.left.length + d.right.length))) (N : S) (hN : ¬ HasIntegral A d N) :
    ∃ out, d.integrals A = .ok out ∧ ∀ i ∈ out, i.particle ≠ N := by
  obtain ⟨rs, ints, out, g1, g2, -⟩ := generated_ints A.toAttr d.left d.right d.antiL d.antiR h0 h1 Ms hM
  obtain ⟨-, -, -, o⟩ := generated_owner A d h0 h1 Ms hM out g2
  refine ⟨out, ?_, fun i hi e => hN ((o N).mp ⟨i, hi, e⟩)⟩
  unfold Decl.integrals
  rw [hd]
  exact g2

theorem headName_of (d : Decl S) (h0 : d.left.length = d.antiL.length) (h1 : d.right.length = d.antiR.length)
    (Ms : List M4) (hd : d.amp = .four Ms) (hM : ∀ x ∈ Ms, x.K = 0 ∧ [x.order.a, x.order.b, x.order.c, x.order.d].Perm
      (List.range (d.left.length + d.right.length))) (out : List (Integral4 S)) (ho : d.integrals A = .ok out) :
    ∀ i ∈ out, headName A i = some (A.name i.particle) := by
  unfold Decl.integrals at ho
  rw [hd] at ho
  obtain ⟨rs, -, p, -⟩ := generated_owner A d h0 h1 Ms hM out ho
  intro i hi
  have := (p i hi).2
  unfold headName
  cases hr : i.reaction.head? with
  | none => rw [hr] at this; simp at this
  | some x => rw [hr] at this; simpa using congrArg (Option.map A.name) this

theorem sterileM_ok (θ K1 K2 : ℝ) (o : Ord4) (h : [(normOrder o).a, (normOrder o).b, (normOrder o).c, (normOrder o).d].Perm
    (List.range 4)) : (sterileM c θ K1 K2 o).K = 0 ∧ [(sterileM c θ K1 K2 o).order.a, (sterileM c θ K1 K2 o).order.b,
      (sterileM c θ K1 K2 o).order.c, (sterileM c θ K1 K2 o).order.d].Perm (List.range 4) := ⟨rfl, h⟩

variable {A}

open Classical in
/-- Scattering: the heavy neutrino (Dirac or Majorana) decays once. -/
theorem strength_scattering (hinj : Function.Injective A.name) (θ : ℝ) (N a b : S) (ha : a ≠ N) (hb : b ≠ N) :
    ∃ out, keepScattering A c θ N a b = .ok out ∧ strength N out =
      if A.mass b + A.mass a + A.mass b < A.mass N then 32 * c.GF ^ 2 * θ ^ 2 * (if a = b then 2 else 1) else 0 := by
  set K1 : ℝ := if a = b then 2 else 1 with hK
  have m0 : ∀ x ∈ [sterileM c θ K1 0 ⟨0, 1, 2, 3⟩], x.K = 0 ∧ [x.order.a, x.order.b, x.order.c, x.order.d].Perm (List.range 4) := by
    intro x hx
    rw [List.mem_singleton.mp hx]
    exact sterileM_ok c _ _ _ _ (by decide)
  have m1 : ∀ x ∈ [sterileM c θ K1 0 ⟨2, 3, 0, 1⟩], x.K = 0 ∧ [x.order.a, x.order.b, x.order.c, x.order.d].Perm (List.range 4) := by
    intro x hx
    rw [List.mem_singleton.mp hx]
    exact sterileM_ok c _ _ _ _ (by decide)
  obtain ⟨i0, e0, s0⟩ := strength_two_two A hinj N b a b false false false false _ m0 N hb ha hb rfl rfl
  have own : HasIntegral A ⟨[N, b], [a, b], [false, false], [false, false], .four [sterileM c θ K1 0 ⟨0, 1, 2, 3⟩]⟩ N :=
    (C99_two_two A _ _ _ _ _ _ _ _ _ _).mpr (Or.inl ⟨rfl, rfl⟩)
  obtain ⟨-, -, -, o⟩ := generated_owner A
    ⟨[N, b], [a, b], [false, false], [false, false], .four [sterileM c θ K1 0 ⟨0, 1, 2, 3⟩]⟩ rfl rfl _ m0 i0 e0
  obtain ⟨j, hj, ej⟩ := (o N).mpr own
  have hd0 := headName_of A
    ⟨[N, b], [a, b], [false, false], [false, false], .four [sterileM c θ K1 0 ⟨0, 1, 2, 3⟩]⟩ rfl rfl _ rfl m0 i0 e0
  obtain ⟨-, -, i1, -, e1, -⟩ := generated_ints A.toAttr [a, b] [N, b] [false, false] [false, false] rfl rfl _ m1
  have hd1 := headName_of A
    ⟨[a, b], [N, b], [false, false], [false, false], .four [sterileM c θ K1 0 ⟨2, 3, 0, 1⟩]⟩ rfl rfl _ rfl m1 i1 e1
  refine ⟨i0 ++ i1.filter fun i => headName A i ∉ i0.map (headName A), ?_, ?_⟩
  · have e1' : (⟨[a, b], [N, b], [false, false], [false, false], .four [sterileM c θ K1 0 ⟨2, 3, 0, 1⟩]⟩ : Decl S).integrals A =
      .ok i1 := e1
    unfold keepScattering sterileScattering pairOf
    simp only [bind, Except.bind, ← hK, e0, e1']
    rfl
  · rw [strength_append, s0, strength_none N (i1.filter _), add_zero]
    · have sK : sumK1 [sterileM c θ K1 0 ⟨0, 1, 2, 3⟩] = 32 * c.GF ^ 2 * θ ^ 2 * K1 := by
        simp only [sumK1, sterileM, weakM, List.map_cons, List.map_nil, List.sum_cons, List.sum_nil]; ring
      rw [sK]
    · intro i hi e
      obtain ⟨hi1, hi2⟩ := List.mem_filter.mp hi
      simp only [decide_eq_true_eq] at hi2
      apply hi2
      rw [hd1 i hi1, e, ← ej, ← hd0 j hj]
      exact List.mem_map_of_mem hj

open Classical in
/-- Neutral current: all decays of the heavy neutrino are kept. -/
theorem strength_NC (hinj : Function.Injective A.name) (θ gL : ℝ) (N a l : S) (ha : a ≠ N) (hl : l ≠ N) :
    ∃ out, keepNC A c θ gL N a l = .ok out ∧ strength N out =
      if A.mass a + A.mass l + A.mass l < A.mass N then 128 * c.GF ^ 2 * θ ^ 2 * (gL ^ 2 + c.gR ^ 2) else 0 := by
  set Ms := [sterileM c θ (4 * gL ^ 2) 0 ⟨0, 2, 1, 3⟩, sterileM c θ (4 * c.gR ^ 2) 0 ⟨0, 3, 1, 2⟩,
        sterileM c θ 0 (4 * c.gR * gL) ⟨2, 3, 0, 1⟩] with hMs
  have m0 : ∀ x ∈ Ms, x.K = 0 ∧ [x.order.a, x.order.b, x.order.c, x.order.d].Perm (List.range 4) := by
    intro x hx
    simp only [hMs, List.mem_cons, List.not_mem_nil, or_false] at hx
    rcases hx with rfl | rfl | rfl <;> exact sterileM_ok c _ _ _ _ (by decide)
  obtain ⟨i0, e0, s0⟩ := strength_two_two A hinj N a l l false true true false Ms m0 N ha hl hl rfl rfl
  have hno : ¬ HasIntegral A ⟨[N, a], [l, l], [true, false], [false, true], .four Ms⟩ N := by
    rw [C99_two_two]
    simp [ha.symm, hl.symm]
  obtain ⟨i1, e1, n1⟩ := no_owner A ⟨[N, a], [l, l], [true, false], [false, true], .four Ms⟩ rfl rfl Ms rfl m0 N hno
  have hd0 := headName_of A ⟨[N, a], [l, l], [false, true], [true, false], .four Ms⟩ rfl rfl _ rfl m0 i0 e0
  have sK : sumK1 Ms = 128 * c.GF ^ 2 * θ ^ 2 * (gL ^ 2 + c.gR ^ 2) := by
    simp only [sumK1, hMs, sterileM, weakM, List.map_cons, List.map_nil, List.sum_cons, List.sum_nil]; ring
  rw [sK] at s0
  have red : keepNC A c θ gL N a l = (if A.name l = "Muon" ∨ A.name l = "Tau" then
      .ok (i0.filter (fun i => ¬ (headName A i ≠ some (A.name N) ∧ countLeft A i (A.name l) = 1)) ++
        (i1.filter (fun i => ¬ (headName A i ≠ some (A.name N) ∧ countLeft A i (A.name l) = 1))).filter
          fun i => headName A i ≠ some (A.name l)) else .ok (i0 ++ i1)) := by
    unfold keepNC sterileNC pairOf
    simp only [List.map_cons, List.map_nil, bind, Except.bind, ← hMs, e0, e1]
    split_ifs <;> rfl
  rw [red]
  split_ifs with h1 h2
  · refine ⟨_, rfl, ?_⟩
    rw [strength_append, strength_none N (List.filter _ (List.filter _ i1)), add_zero, strength_filter_keep, s0, if_pos h2]
    · intro i hi hd
      rw [hd0 i hi, hd.1]
      simp
    · intro i hi
      exact n1 i (List.mem_of_mem_filter (List.mem_of_mem_filter hi))
  · refine ⟨_, rfl, ?_⟩
    rw [strength_append, strength_none N (List.filter _ (List.filter _ i1)), add_zero, strength_filter_keep, s0, if_neg h2]
    · intro i hi hd
      rw [hd0 i hi, hd.1]
      simp
    · intro i hi
      exact n1 i (List.mem_of_mem_filter (List.mem_of_mem_filter hi))
  · refine ⟨_, rfl, ?_⟩
    rw [strength_append, strength_none N i1 n1, add_zero, s0, if_pos ‹_›]
  · refine ⟨_, rfl, ?_⟩
    rw [strength_append, strength_none N i1 n1, add_zero, s0, if_neg ‹_›]

open Classical in
/-- Charged current: all decays of the heavy neutrino are kept. -/
theorem strength_CC (hinj : Function.Injective A.name) (θ : ℝ) (N a l l' : S) (ha : a ≠ N) (hl : l ≠ N) (hl' : l' ≠ N)
    (hn : l ≠ l') (hn' : a ≠ l') :
    ∃ out, keepCC A c θ N a l l' = .ok out ∧ strength N out =
      if A.mass a + A.mass l' + A.mass l < A.mass N then 128 * c.GF ^ 2 * θ ^ 2 else 0 := by
  set Ms := [sterileM c θ 4 0 ⟨0, 2, 1, 3⟩] with hMs
  have m0 : ∀ x ∈ Ms, x.K = 0 ∧ [x.order.a, x.order.b, x.order.c, x.order.d].Perm (List.range 4) := by
    intro x hx
    rw [List.mem_singleton.mp hx]
    exact sterileM_ok c _ _ _ _ (by decide)
  obtain ⟨i0, e0, s0⟩ := strength_two_two A hinj N a l' l false true true false Ms m0 N ha hl' hl rfl rfl
  have hno : ¬ HasIntegral A ⟨[a, N], [l, l'], [false, true], [true, false], .four Ms⟩ N := by
    rw [C99_two_two]
    simp [ha.symm, hl.symm, hl'.symm]
  obtain ⟨i1, e1, n1⟩ := no_owner A ⟨[a, N], [l, l'], [false, true], [true, false], .four Ms⟩ rfl rfl Ms rfl m0 N hno
  have sK : sumK1 Ms = 128 * c.GF ^ 2 * θ ^ 2 := by
    simp only [sumK1, hMs, sterileM, weakM, List.map_cons, List.map_nil, List.sum_cons, List.sum_nil]; ring
  rw [sK] at s0
  obtain ⟨rs, hrs, own, -⟩ := generated_owner A ⟨[N, a], [l', l], [false, true], [true, false], .four Ms⟩ rfl rfl Ms m0 i0 e0
  refine ⟨i0.filter (fun i => namedSideSum A i (A.name l') (A.name N) = 0) ++ i1.filter (fun i => namedSideSum A i (A.name l') (A.name N) = 0),
    ?_, ?_⟩
  · unfold keepCC sterileCC pairOf
    simp only [List.map_cons, List.map_nil, bind, Except.bind, ← hMs, e0, e1]
    rfl
  · rw [strength_append, strength_none N (i1.filter _), add_zero, strength_filter_keep, s0]
    · intro i hi hd
      obtain ⟨o1, o2⟩ := own i hi
      have hmem := (decays_perm A hinj ⟨[N, a], [l', l], [false, true], [true, false], .four Ms⟩ rfl rfl (by simp) N rs hrs).mem_iff.mp
        (List.mem_filter.mpr ⟨o1, by simp only [decide_eq_true_eq]; exact ⟨by rw [o2, hd.1], hd.2⟩⟩)
      obtain ⟨o, ho, e⟩ := List.mem_map.mp hmem
      obtain ⟨ho1, ho2⟩ := List.mem_filter.mp ho
      simp only [decide_eq_true_eq] at ho2
      have hl : legs [N, a] [l', l] [false, true] [true, false] =
        [⟨-1, N, false, 0, false⟩, ⟨-1, a, true, 1, false⟩, ⟨1, l', true, 2, false⟩, ⟨1, l, false, 3, false⟩] := rfl
      dsimp only at ho1 e
      rw [hl] at ho1 e
      have ho3 : o = ⟨-1, N, false, 0, false⟩ := by
        simp only [List.mem_cons, List.not_mem_nil, or_false] at ho1
        rcases ho1 with rfl | rfl | rfl | rfl
        · rfl
        · exact absurd ho2.1 ha
        · exact absurd ho2.1 hl'
        · exact absurd ho2.1 ‹l ≠ N›
      subst ho3
      simp only [decide_eq_true_eq]
      unfold namedSideSum
      rw [← e]
      unfold decayOf
      rw [List.erase_cons_head]
      have p := ((sortItems_perm A.toAttr ([⟨-1, a, true, 1, false⟩, ⟨1, l', true, 2, false⟩, ⟨1, l, false, 3, false⟩].map
        (toSide A.toAttr 1))).cons (toSide A.toAttr (-1) ⟨-1, N, false, 0, false⟩))
      rw [((p.filter _).map _).sum_eq]
      have q1 : A.name a ≠ A.name l' := fun h => hn' (hinj h)
      have q2 : A.name a ≠ A.name N := fun h => ha (hinj h)
      have q3 : A.name l ≠ A.name l' := fun h => hn (hinj h)
      have q4 : A.name l ≠ A.name N := fun h => ‹l ≠ N› (hinj h)
      rw [List.filter_cons_of_pos (by simp [toSide]), List.map_cons, List.map_cons, List.map_cons, List.map_cons, List.map_nil,
        List.filter_cons_of_neg (by simp [toSide_specie, q1, q2]), List.filter_cons_of_pos (by simp [toSide_specie]),
        List.filter_cons_of_neg (by simp [toSide_specie, q3, q4])]
      simp [toSide]
    · intro i hi
      exact n1 i (List.mem_of_mem_filter hi)

/-- Hypotheses on the species: distinct names, massless neutrinos, neutrinos, leptons and the heavy neutrino different. -/
structure HeavyOk (A : LibAttr S) (N : S) (neutrinos leptons : List S) : Prop where
  inj : Function.Injective A.name
  heavy : 0 < A.mass N
  notNu : N ∉ neutrinos
  notLep : N ∉ leptons
  apart : ∀ a ∈ neutrinos, a ∉ leptons
  massless : ∀ a ∈ neutrinos, A.mass a = 0

open Classical in
/-- **C101 (heavy neutrino into leptons).** The total coefficient of all decay integrals of the heavy neutrino, whether
Dirac or Majorana, left after the removals: three neutrinos, one neutrino and a pair, one neutrino and two different leptons;
closed channels contribute nothing. -/
theorem C101_strength (thetas : String → ℝ) (N : S) (neutrinos leptons : List S) (ok : HeavyOk A N neutrinos leptons) :
    ∃ out, sterileLeptonIntegrals A c thetas N neutrinos leptons = .ok out ∧ strength N out =
      32 * c.GF ^ 2 * (
        ((neutrinos.product neutrinos).map fun x => thetas (A.flavour x.1) ^ 2 * (if x.1 = x.2 then 2 else 1)).sum +
        ((leptons.product neutrinos).map fun x =>
          (if 2 * A.mass x.1 < A.mass N then 4 * thetas (A.flavour x.2) ^ 2 * (couplingL A c x.1 x.2 ^ 2 + c.gR ^ 2) else 0) +
          ((leptons.filter (· ≠ x.1)).map fun o => if A.flavour x.2 = A.flavour o ∧ A.mass x.1 + A.mass o < A.mass N then
            4 * thetas (A.flavour x.1) ^ 2 else 0).sum).sum) := by
  have p1 := strength_mapM N (fun x : S × S => (if thetas (A.flavour x.1) ≠ 0 then
    keepScattering A c (thetas (A.flavour x.1)) N x.1 x.2 else .ok []))
    (fun x => 32 * c.GF ^ 2 * (thetas (A.flavour x.1) ^ 2 * (if x.1 = x.2 then 2 else 1))) (neutrinos.product neutrinos) (by
      intro x hx
      obtain ⟨x1, x2⟩ := x
      obtain ⟨h1, h2⟩ := List.pair_mem_product.mp hx
      dsimp only
      by_cases hθ : thetas (A.flavour x1) ≠ 0
      · obtain ⟨o, e, s⟩ := strength_scattering c ok.inj (thetas (A.flavour x1)) N x1 x2 (fun e => ok.notNu (e ▸ h1))
          (fun e => ok.notNu (e ▸ h2))
        refine ⟨o, by rw [if_pos hθ]; exact e, ?_⟩
        rw [s, ok.massless _ h1, ok.massless _ h2, if_pos (by rw [add_zero, add_zero]; exact ok.heavy)]
        exact mul_assoc _ _ _
      · refine ⟨[], by rw [if_neg hθ], ?_⟩
        rw [strength_nil, not_not.mp hθ, zero_pow two_ne_zero, zero_mul, mul_zero])
  obtain ⟨xs, x1, x2⟩ := p1
  have p2 := strength_mapM N (fun x : S × S => keepLepton A c thetas N leptons x.1 x.2)
    (fun x => 32 * c.GF ^ 2 * ((if 2 * A.mass x.1 < A.mass N then
        4 * thetas (A.flavour x.2) ^ 2 * (couplingL A c x.1 x.2 ^ 2 + c.gR ^ 2) else 0) +
      ((leptons.filter (· ≠ x.1)).map fun o => if A.flavour x.2 = A.flavour o ∧ A.mass x.1 + A.mass o < A.mass N then
            4 * thetas (A.flavour x.1) ^ 2 else 0).sum)) (leptons.product neutrinos) (by
      intro x hx
      obtain ⟨l, a⟩ := x
      obtain ⟨h1, h2⟩ := List.pair_mem_product.mp hx
      dsimp only
      have haN : a ≠ N := fun e => ok.notNu (e ▸ h2)
      have hlN : l ≠ N := fun e => ok.notLep (e ▸ h1)
      have nc : ∃ o, (if thetas (A.flavour a) ≠ 0 then
          keepNC A c (thetas (A.flavour a)) (couplingL A c l a) N a l else .ok []) = .ok o ∧ strength N o = 32 * c.GF ^ 2 *
          (if 2 * A.mass l < A.mass N then 4 * thetas (A.flavour a) ^ 2 * (couplingL A c l a ^ 2 + c.gR ^ 2) else 0) := by
        by_cases hθ : thetas (A.flavour a) ≠ 0
        · rw [if_pos hθ]
          obtain ⟨o, e, s⟩ := strength_NC c ok.inj (thetas (A.flavour a)) (couplingL A c l a) N a l haN hlN
          refine ⟨o, e, ?_⟩
          rw [s, ok.massless _ h2]
          by_cases ho : 2 * A.mass l < A.mass N
          · rw [if_pos ho, if_pos (by linarith)]; ring
          · rw [if_neg ho, if_neg (by intro h; apply ho; linarith)]; ring
        · rw [if_neg hθ]
          refine ⟨[], rfl, ?_⟩
          rw [strength_nil, not_not.mp hθ]
          simp
      obtain ⟨o1, n1, n2⟩ := nc
      have cc := strength_mapM N (fun o : S => (if thetas (A.flavour l) ≠ 0 ∧ A.flavour a = A.flavour o then
          keepCC A c (thetas (A.flavour l)) N a l o else .ok [])) (fun o => 32 * c.GF ^ 2 *
          (if A.flavour a = A.flavour o ∧ A.mass l + A.mass o < A.mass N then 4 * thetas (A.flavour l) ^ 2 else 0))
          (if 1 < leptons.length then leptons.filter (· ≠ l) else []) (by
        intro o ho
        have ho' : o ∈ leptons ∧ o ≠ l := by
          split_ifs at ho
          · simpa using ho
          · simp at ho
        have hoN : o ≠ N := fun e => ok.notLep (e ▸ ho'.1)
        by_cases hθ : thetas (A.flavour l) ≠ 0 ∧ A.flavour a = A.flavour o
        · obtain ⟨o', e, s⟩ := strength_CC c ok.inj (thetas (A.flavour l)) N a l o haN hlN hoN ho'.2.symm
            (fun e => ok.apart a h2 (e ▸ ho'.1))
          refine ⟨o', by rw [if_pos hθ]; exact e, ?_⟩
          rw [s, ok.massless _ h2]
          by_cases hop : A.mass l + A.mass o < A.mass N
          · rw [if_pos (show 0 + A.mass o + A.mass l < A.mass N by linarith), if_pos ⟨hθ.2, hop⟩]; ring
          · rw [if_neg (show ¬ 0 + A.mass o + A.mass l < A.mass N by intro h; apply hop; linarith), if_neg (fun h => hop h.2)]; ring
        · refine ⟨[], by rw [if_neg hθ], ?_⟩
          rw [strength_nil]
          by_cases hf : A.flavour a = A.flavour o
          · have : thetas (A.flavour l) = 0 := by
              by_contra h
              exact hθ ⟨h, hf⟩
            rw [this]; simp
          · rw [if_neg (fun h => hf h.1)]; simp)
      obtain ⟨ys, y1, y2⟩ := cc
      refine ⟨o1 ++ ys.flatten, ?_, ?_⟩
      · unfold keepLepton
        dsimp only
        rw [n1]
        simp only [bind, Except.bind]
        rw [y1]
        rfl
      · rw [strength_append, n2, y2]
        refine Eq.trans ?_ (mul_add _ _ _).symm
        refine congrArg₂ _ rfl ?_
        by_cases h1' : 1 < leptons.length
        · rw [if_pos h1', ← List.sum_map_mul_left]
        · have hf : leptons.filter (· ≠ l) = [] := by
            obtain ⟨y, hy⟩ : ∃ y, leptons = [y] := by
              apply List.length_eq_one_iff.mp
              have := List.length_pos_of_mem h1
              omega
            rw [hy] at h1 ⊢
            rw [List.mem_singleton.mp h1]
            simp
          rw [if_neg h1', hf]
          simp)
  obtain ⟨ys, y1, y2⟩ := p2
  refine ⟨xs.flatten ++ ys.flatten, ?_, ?_⟩
  · unfold sterileLeptonIntegrals
    simp only [bind, Except.bind]
    rw [x1]
    dsimp only
    rw [y1]
    rfl
  · rw [strength_append, x2, y2, mul_add, List.sum_map_mul_left, List.sum_map_mul_left]

end
end PyBBN
