import Verif.Props.Terms
import Verif.Props.SterileWidths
/-!
# C103 (continued): the integrals of the heavy neutrino and the leptons
-/
namespace PyBBN

set_option linter.unusedSectionVars false

section
variable {S : Type*} [DecidableEq S] (A : LibAttr S) (c : LibConst)

/-- All participants of a process feel it with the coefficient `w`, times the number of particles of the species on the
side in question. -/
def BalancedWith (l : List (Integral4 S)) (L R : Multiset S) (w : ℝ) : Prop :=
  (∀ s ∈ L, rateIn A l s L R = L.count s * w) ∧ ∀ s ∈ R, rateIn A l s R L = R.count s * w

theorem classMult_map {T : Type*} [DecidableEq T] (f : T → S) (hf : Function.Injective f) (s : T) (L R : Multiset T) :
    classMult (f s) (L.map f) (R.map f) = classMult s L R := by
  unfold classMult
  rw [Multiset.count_map_eq_count' f _ hf, Multiset.count_map_eq_count' f _ hf]

theorem countLeft_class (hinj : Function.Injective A.name) (i : Integral4 S) (s l : S) (L R : Multiset S)
    (h : InClass s L R i) : countLeft A i (A.name l) = L.count l := by
  rw [← h.2.1, Multiset.coe_count]
  unfold countLeft speciesOn
  rw [List.count, List.countP_map]
  congr 1
  funext x
  simp only [Function.comp_apply, hinj.eq_iff]
  rw [Bool.eq_iff_iff]; simp

theorem namedSideSum_class (hinj : Function.Injective A.name) (i : Integral4 S) (s n1 n2 : S) (hn : n1 ≠ n2)
    (L R : Multiset S) (h : InClass s L R i) (hs : ∀ x ∈ i.reaction, x.side = -1 ∨ x.side = 1) :
    namedSideSum A i (A.name n1) (A.name n2) = ((R.count n1 + R.count n2 : ℕ) : ℤ) - ((L.count n1 + L.count n2 : ℕ) : ℤ) := by
  rw [← h.2.1, ← h.2.2]
  unfold namedSideSum speciesOn
  simp only [Multiset.coe_count]
  generalize i.reaction = r at hs
  induction r with
  | nil => simp
  | cons x r ih =>
    have ih := ih fun y hy => hs y (List.mem_cons_of_mem _ hy)
    have e : ∀ n, (A.name x.specie = A.name n) ↔ x.specie = n := fun n => hinj.eq_iff
    have e' : ∀ n (y : Item S), (A.name y.specie = A.name n) ↔ y.specie = n := fun n y => hinj.eq_iff
    simp only [e'] at ih ⊢
    rcases hs x (List.mem_cons_self ..) with hx | hx
    all_goals
      by_cases c1 : x.specie = n1
      · have c2 : x.specie ≠ n2 := fun h => hn (c1.symm.trans h)
        simp only [List.filter_cons, hx, c1, c2, hn, true_or, decide_true, if_true, Int.reduceNeg, Int.reduceEq, decide_false,
          Bool.false_eq_true, if_false, List.map_cons, List.sum_cons, List.count_cons, beq_iff_eq]
        push_cast at ih ⊢; rw [ih]; ring
      · by_cases c2 : x.specie = n2
        · simp only [List.filter_cons, hx, c2, Ne.symm hn, or_true, decide_true, if_true, Int.reduceNeg, Int.reduceEq, decide_false,
            Bool.false_eq_true, if_false, List.map_cons, List.sum_cons, List.count_cons, beq_iff_eq]
          push_cast at ih ⊢; rw [ih]; ring
        · simp only [List.filter_cons, hx, c1, c2, or_false, decide_true, if_true, Int.reduceNeg, Int.reduceEq, decide_false,
            Bool.false_eq_true, if_false, List.map_cons, List.count_cons, beq_iff_eq]
          push_cast at ih ⊢; rw [ih]; ring

theorem coeffIn_filter (l : List (Integral4 S)) (p : Integral4 S → Bool) (s : S) (L R : Multiset S) (P : Prop) [Decidable P]
    (h : ∀ i ∈ l, InClass s L R i → (p i = true ↔ P)) :
    coeffIn (l.filter p) s L R = if P then coeffIn l s L R else 0 := by
  split_ifs with hP
  · exact coeffIn_keep l p s L R fun i hi hc => (h i hi hc).mpr hP
  · refine coeffIn_drop l p s L R fun i hi hc => ?_
    rw [← Bool.not_eq_true]
    exact fun hp => hP ((h i hi hc).mp hp)

/-- The integrals of one declaration with two legs on each side. -/
theorem two_two_terms (hinj : Function.Injective A.name) (hmaj : ∀ s, A.majorana s = false) {T : Type*} [DecidableEq T]
    (f : T → S) (hf : Function.Injective f) (p0 p1 p2 p3 : T) (a0 a1 a2 a3 : Bool) (Ms : List M4)
    (hM : ∀ x ∈ Ms, x.K = 0 ∧ [x.order.a, x.order.b, x.order.c, x.order.d].Perm (List.range 4)) :
    ∃ out, (⟨[f p0, f p1], [f p2, f p3], [a0, a1], [a2, a3], .four Ms⟩ : Decl S).integrals A = .ok out ∧
      (∀ i ∈ out, i.reaction.head?.map (·.specie) = some i.particle) ∧
      (∀ i ∈ out, ∀ x ∈ i.reaction, x.side = -1 ∨ x.side = 1) ∧
      (∀ i ∈ out, headName A i = some (A.name i.particle)) ∧
      (∀ s, (∃ i ∈ out, i.particle = s) ↔ HasIntegral A ⟨[f p0, f p1], [f p2, f p3], [a0, a1], [a2, a3], .four Ms⟩ s) ∧
      ∀ s (L R : Multiset T), OpenClass A (L.map f) (R.map f) → coeffIn out (f s) (L.map f) (R.map f) =
        countIn leads (legs [p0, p1] [p2, p3] [a0, a1] [a2, a3]) s L R * sumK1 Ms := by
  let d : Decl S := ⟨[f p0, f p1], [f p2, f p3], [a0, a1], [a2, a3], .four Ms⟩
  obtain ⟨-, -, out, -, g2, -⟩ := generated_ints A.toAttr [f p0, f p1] [f p2, f p3] [a0, a1] [a2, a3] rfl rfl Ms hM
  obtain ⟨rs, r1, r2, r3⟩ := generated_owner A d rfl rfl Ms hM out g2
  refine ⟨out, g2, fun i hi => (r2 i hi).2, ?_, headName_of A d rfl rfl Ms rfl hM out g2, r3, ?_⟩
  · intro i hi x hx
    obtain ⟨y, hy, -, e⟩ := (crossings_mem A hinj d rfl rfl rs r1 i.reaction).mp (r2 i hi).1
    obtain ⟨m1, m2⟩ := (mem_choices _ y).mp hy
    have hs := legs_side d.left d.right d.antiL d.antiR
    rw [← e] at hx
    unfold crossWith at hx
    rcases List.mem_append.mp hx with hx | hx
    · rcases List.mem_cons.mp hx with rfl | hx
      · exact Or.inl (toSide_side A.toAttr (-1) _ (hs _ m1) (Or.inl rfl))
      · obtain ⟨z, hz, rfl⟩ := List.mem_map.mp ((sortItems_perm A.toAttr _).mem_iff.mp hx)
        exact Or.inl (toSide_side A.toAttr (-1) z (hs z (List.mem_of_mem_erase (m2.subset hz))) (Or.inl rfl))
    · obtain ⟨z, hz, rfl⟩ := List.mem_map.mp ((sortItems_perm A.toAttr _).mem_iff.mp hx)
      exact Or.inr (toSide_side A.toAttr 1 z (hs z (List.mem_of_mem_erase (List.mem_of_mem_filter hz))) (Or.inr rfl))
  · intro s L R ho
    rw [coeffIn_generated A hinj hmaj d rfl rfl Ms hM (f s) _ _ ho out g2, ← countIn_map f hf]
    rfl

variable {A}

/-! ## Scattering on neutrinos -/

def scat1 : List (Item (Fin 3)) := legs [0, 2] [1, 2] [false, false] [false, false]
def scat2 : List (Item (Fin 3)) := legs [1, 2] [0, 2] [false, false] [false, false]
def scatSame : List (Item (Fin 2)) := legs [0, 1] [1, 1] [false, false] [false, false]
def nc1 : List (Item (Fin 3)) := legs [0, 1] [2, 2] [false, true] [true, false]
def nc2 : List (Item (Fin 3)) := legs [0, 1] [2, 2] [true, false] [false, true]
def cc1 : List (Item (Fin 4)) := legs [0, 1] [3, 2] [false, true] [true, false]
def cc2 : List (Item (Fin 4)) := legs [1, 0] [2, 3] [false, true] [true, false]

/-- Weights of the processes in units of the coefficient of the declaration: the multiplier times the number of kept
integrals. -/
def scatRate (s : Fin 3) (L R : Multiset (Fin 3)) : ℕ :=
  classMult s L R * (countIn leads scat1 s L R + if s = 1 then countIn leads scat2 s L R else 0)
def sameRate (s : Fin 2) (L R : Multiset (Fin 2)) : ℕ := classMult s L R * countIn leads scatSame s L R
def ncHeavy (s : Fin 3) (L R : Multiset (Fin 3)) : ℕ :=
  classMult s L R * (if s ≠ 0 ∧ L.count 2 = 1 then 0 else countIn leads nc1 s L R + if s = 2 then 0 else countIn leads nc2 s L R)
def ncLight (s : Fin 3) (L R : Multiset (Fin 3)) : ℕ :=
  classMult s L R * (countIn leads nc1 s L R + countIn leads nc2 s L R)
def ccRate (s : Fin 4) (L R : Multiset (Fin 4)) : ℕ :=
  classMult s L R * (if R.count 3 + R.count 0 = L.count 3 + L.count 0 then countIn leads cc1 s L R + countIn leads cc2 s L R else 0)

theorem scattering_rates (hinj : Function.Injective A.name) (hmaj : ∀ s, A.majorana s = false) (θ : ℝ) (N a b : S)
    (hN : A.name N = hnlName) (ha : a ≠ N) (hb : b ≠ N) (hab : a ≠ b) (f : Fin 3 → S) (hf : f = ![N, a, b]) :
    ∃ out, keepScattering A c θ N a b = .ok out ∧ ∀ s (L R : Multiset (Fin 3)), OpenClass A (L.map f) (R.map f) →
      0 ∈ L + R → rateIn A out (f s) (L.map f) (R.map f) = scatRate s L R * (32 * c.GF ^ 2 * θ ^ 2) := by
  have finj : Function.Injective f := by
    subst hf
    intro x y
    fin_cases x <;> fin_cases y <;> simp [ha, hb, hab, ha.symm, hb.symm, hab.symm]
  have m0 : ∀ o, (o = (⟨0, 1, 2, 3⟩ : Ord4) ∨ o = ⟨2, 3, 0, 1⟩) → ∀ x ∈ [sterileM c θ 1 0 o], x.K = 0 ∧
      [x.order.a, x.order.b, x.order.c, x.order.d].Perm (List.range 4) := by
    intro o ho x hx
    rw [List.mem_singleton.mp hx]
    rcases ho with rfl | rfl <;> exact sterileM_ok c _ _ _ _ (by decide)
  have sK : ∀ o, sumK1 [sterileM c θ 1 0 o] = 32 * c.GF ^ 2 * θ ^ 2 := by
    intro o
    simp only [sumK1, sterileM, weakM, List.map_cons, List.map_nil, List.sum_cons, List.sum_nil]; ring
  obtain ⟨i0, e0, h0, -, n0, o0, c0⟩ := two_two_terms A hinj hmaj f finj 0 2 1 2 false false false false _ (m0 _ (Or.inl rfl))
  obtain ⟨i1, e1, h1, -, n1, o1, c1⟩ := two_two_terms A hinj hmaj f finj 1 2 0 2 false false false false _ (m0 _ (Or.inr rfl))
  have f0 : f 0 = N := by rw [hf]; rfl
  have f1 : f 1 = a := by rw [hf]; rfl
  have f2 : f 2 = b := by rw [hf]; rfl
  refine ⟨i0 ++ i1.filter fun i => headName A i ∉ i0.map (headName A), ?_, ?_⟩
  · rw [f0, f1, f2] at e0 e1
    unfold keepScattering sterileScattering pairOf
    simp only [bind, Except.bind, if_neg hab, e0, e1]
    rfl
  · intro s L R ho h0N
    have hI : HasIntegral A ⟨[f 0, f 2], [f 1, f 2], [false, false], [false, false],
        .four [sterileM c θ 1 0 ⟨0, 1, 2, 3⟩]⟩ (f s) ↔ s ≠ 1 := by
      rw [C99_two_two]
      simp only [finj.eq_iff, hmaj]
      clear * -
      revert s
      decide
    have keep : ∀ i ∈ i1, InClass (f s) (L.map f) (R.map f) i →
        ((decide (headName A i ∉ i0.map (headName A))) = true ↔ s = 1) := by
      intro i hi hc
      have : headName A i ∈ i0.map (headName A) ↔ s ≠ 1 := by
        rw [← hI, ← o0 (f s), n1 i hi, hc.1]
        constructor
        · intro hm
          obtain ⟨j, hj, e⟩ := List.mem_map.mp hm
          rw [n0 j hj] at e
          exact ⟨j, hj, hinj (Option.some.inj e)⟩
        · rintro ⟨j, hj, e⟩
          rw [← e, ← n0 j hj]
          exact List.mem_map_of_mem hj
      rw [decide_eq_true_eq, this, not_not]
    rw [rateIn_eq A _ _ _ _ ?_ N ?_ hN, classMult_map f finj, coeffIn_append, c0 s L R ho,
      coeffIn_filter _ _ _ _ _ _ keep, c1 s L R ho, sK, sK]
    · change _ * (_ + if s = 1 then (countIn leads scat2 s L R : ℝ) * _ else 0) = _
      unfold scatRate scat1
      push_cast
      split_ifs <;> push_cast <;> ring
    · intro i hi
      rcases List.mem_append.mp hi with hi | hi
      · exact h0 i hi
      · exact h1 i (List.mem_of_mem_filter hi)
    · rw [← f0, ← Multiset.map_add]
      exact Multiset.mem_map_of_mem f h0N

theorem scattering_same_rates (hinj : Function.Injective A.name) (hmaj : ∀ s, A.majorana s = false) (θ : ℝ) (N a : S)
    (hN : A.name N = hnlName) (ha : a ≠ N) (f : Fin 2 → S) (hf : f = ![N, a]) :
    ∃ out, keepScattering A c θ N a a = .ok out ∧ ∀ s (L R : Multiset (Fin 2)), OpenClass A (L.map f) (R.map f) →
      0 ∈ L + R → rateIn A out (f s) (L.map f) (R.map f) = sameRate s L R * (64 * c.GF ^ 2 * θ ^ 2) := by
  have finj : Function.Injective f := by
    subst hf
    intro x y
    fin_cases x <;> fin_cases y <;> simp [ha, ha.symm]
  have m0 : ∀ o, (o = (⟨0, 1, 2, 3⟩ : Ord4) ∨ o = ⟨2, 3, 0, 1⟩) → ∀ x ∈ [sterileM c θ 2 0 o], x.K = 0 ∧
      [x.order.a, x.order.b, x.order.c, x.order.d].Perm (List.range 4) := by
    intro o ho x hx
    rw [List.mem_singleton.mp hx]
    rcases ho with rfl | rfl <;> exact sterileM_ok c _ _ _ _ (by decide)
  have sK : ∀ o, sumK1 [sterileM c θ 2 0 o] = 64 * c.GF ^ 2 * θ ^ 2 := by
    intro o
    simp only [sumK1, sterileM, weakM, List.map_cons, List.map_nil, List.sum_cons, List.sum_nil]; ring
  obtain ⟨i0, e0, h0, -, n0, o0, c0⟩ := two_two_terms A hinj hmaj f finj 0 1 1 1 false false false false _ (m0 _ (Or.inl rfl))
  obtain ⟨i1, e1, h1, -, n1, o1, c1⟩ := two_two_terms A hinj hmaj f finj 1 1 0 1 false false false false _ (m0 _ (Or.inr rfl))
  have f0 : f 0 = N := by rw [hf]; rfl
  have f1 : f 1 = a := by rw [hf]; rfl
  refine ⟨i0 ++ i1.filter fun i => headName A i ∉ i0.map (headName A), ?_, ?_⟩
  · rw [f0, f1] at e0 e1
    unfold keepScattering sterileScattering pairOf
    simp only [bind, Except.bind, if_true, e0, e1]
    rfl
  · intro s L R ho h0N
    have hI : HasIntegral A ⟨[f 0, f 1], [f 1, f 1], [false, false], [false, false],
        .four [sterileM c θ 2 0 ⟨0, 1, 2, 3⟩]⟩ (f s) := by
      rw [C99_two_two]
      simp only [finj.eq_iff, hmaj]
      clear * -
      revert s
      decide
    have keep : ∀ i ∈ i1, InClass (f s) (L.map f) (R.map f) i →
        ((decide (headName A i ∉ i0.map (headName A))) = true ↔ False) := by
      intro i hi hc
      obtain ⟨j, hj, e⟩ := (o0 (f s)).mpr hI
      rw [decide_eq_true_eq, n1 i hi, hc.1, ← e, ← n0 j hj]
      exact ⟨fun h => h (List.mem_map_of_mem hj), False.elim⟩
    rw [rateIn_eq A _ _ _ _ ?_ N ?_ hN, classMult_map f finj, coeffIn_append, c0 s L R ho,
      coeffIn_filter _ _ _ _ _ _ keep, sK, if_neg not_false]
    · unfold sameRate scatSame
      push_cast; ring
    · intro i hi
      rcases List.mem_append.mp hi with hi | hi
      · exact h0 i hi
      · exact h1 i (List.mem_of_mem_filter hi)
    · rw [← f0, ← Multiset.map_add]
      exact Multiset.mem_map_of_mem f h0N

theorem NC_rates (hinj : Function.Injective A.name) (hmaj : ∀ s, A.majorana s = false) (θ gL : ℝ) (N a l : S)
    (hN : A.name N = hnlName) (ha : a ≠ N) (hl : l ≠ N) (hal : a ≠ l) (f : Fin 3 → S) (hf : f = ![N, a, l]) :
    ∃ out, keepNC A c θ gL N a l = .ok out ∧ ∀ s (L R : Multiset (Fin 3)), OpenClass A (L.map f) (R.map f) →
      0 ∈ L + R → rateIn A out (f s) (L.map f) (R.map f) = 
        (if A.name l = "Muon" ∨ A.name l = "Tau" then ncHeavy s L R else ncLight s L R : ℕ) * (128 * c.GF ^ 2 * θ ^ 2 * (gL ^ 2 + c.gR ^ 2)) := by
  have finj : Function.Injective f := by
    subst hf
    intro x y
    fin_cases x <;> fin_cases y <;> simp [ha, hl, hal, ha.symm, hl.symm, hal.symm]
  set Ms := [sterileM c θ (4 * gL ^ 2) 0 ⟨0, 2, 1, 3⟩, sterileM c θ (4 * c.gR ^ 2) 0 ⟨0, 3, 1, 2⟩,
        sterileM c θ 0 (4 * c.gR * gL) ⟨2, 3, 0, 1⟩] with hMs
  have m0 : ∀ x ∈ Ms, x.K = 0 ∧ [x.order.a, x.order.b, x.order.c, x.order.d].Perm (List.range 4) := by
    intro x hx
    simp only [hMs, List.mem_cons, List.not_mem_nil, or_false] at hx
    rcases hx with rfl | rfl | rfl <;> exact sterileM_ok c _ _ _ _ (by decide)
  have sK : sumK1 Ms = 128 * c.GF ^ 2 * θ ^ 2 * (gL ^ 2 + c.gR ^ 2) := by
    simp only [sumK1, hMs, sterileM, weakM, List.map_cons, List.map_nil, List.sum_cons, List.sum_nil]; ring
  obtain ⟨i0, e0, h0, -, n0, -, c0⟩ := two_two_terms A hinj hmaj f finj 0 1 2 2 false true true false Ms m0
  obtain ⟨i1, e1, h1, -, n1, -, c1⟩ := two_two_terms A hinj hmaj f finj 0 1 2 2 true false false true Ms m0
  have f0 : f 0 = N := by rw [hf]; rfl
  have f1 : f 1 = a := by rw [hf]; rfl
  have f2 : f 2 = l := by rw [hf]; rfl
  have red : keepNC A c θ gL N a l = (if A.name l = "Muon" ∨ A.name l = "Tau" then
      .ok (i0.filter (fun i => ¬ (headName A i ≠ some (A.name N) ∧ countLeft A i (A.name l) = 1)) ++
        (i1.filter (fun i => ¬ (headName A i ≠ some (A.name N) ∧ countLeft A i (A.name l) = 1))).filter
          fun i => headName A i ≠ some (A.name l)) else .ok (i0 ++ i1)) := by
    rw [f0, f1, f2] at e0 e1
    unfold keepNC sterileNC pairOf
    simp only [List.map_cons, List.map_nil, bind, Except.bind, ← hMs, e0, e1]
    split_ifs <;> rfl
  rw [red]
  by_cases hl' : A.name l = "Muon" ∨ A.name l = "Tau"
  · rw [if_pos hl']
    refine ⟨_, rfl, ?_⟩
    intro s L R ho h0N
    have k1 : ∀ ii : List (Integral4 S), (∀ i ∈ ii, headName A i = some (A.name i.particle)) → ∀ i ∈ ii,
        InClass (f s) (L.map f) (R.map f) i →
        ((decide (¬ (headName A i ≠ some (A.name N) ∧ countLeft A i (A.name l) = 1))) = true ↔
          ¬ (s ≠ 0 ∧ L.count 2 = 1)) := by
      intro ii nn i hi hc
      rw [decide_eq_true_eq, nn i hi, hc.1, countLeft_class A hinj i _ l _ _ hc, ← f2, Multiset.count_map_eq_count' f _ finj,
        ← f0, Ne, Option.some.injEq, hinj.eq_iff, finj.eq_iff]
    have k2 : ∀ i ∈ i1.filter (fun i => ¬ (headName A i ≠ some (A.name N) ∧ countLeft A i (A.name l) = 1)),
        InClass (f s) (L.map f) (R.map f) i → ((decide (headName A i ≠ some (A.name l))) = true ↔ s ≠ 2) := by
      intro i hi hc
      rw [decide_eq_true_eq, n1 i (List.mem_of_mem_filter hi), hc.1, ← f2, Ne, Option.some.injEq, hinj.eq_iff, finj.eq_iff]
    rw [rateIn_eq A _ _ _ _ ?_ N ?_ hN, classMult_map f finj, coeffIn_append, coeffIn_filter _ _ _ _ _ _ (k1 i0 n0),
      coeffIn_filter _ _ _ _ _ _ k2, coeffIn_filter _ _ _ _ _ _ (k1 i1 n1), c0 s L R ho, c1 s L R ho, sK, if_pos hl']
    · unfold ncHeavy nc1 nc2
      by_cases q1 : s ≠ 0 ∧ L.count 2 = 1
      · rw [if_neg (not_not.mpr q1), if_neg (not_not.mpr q1), if_pos q1]; simp
      · rw [if_pos q1, if_pos q1, if_neg q1]
        by_cases q2 : s = 2
        · rw [if_neg (not_not.mpr q2), if_pos q2]; push_cast; ring
        · rw [if_pos q2, if_neg q2]; push_cast; ring
    · intro i hi
      rcases List.mem_append.mp hi with hi | hi
      · exact h0 i (List.mem_of_mem_filter hi)
      · exact h1 i (List.mem_of_mem_filter (List.mem_of_mem_filter hi))
    · rw [← f0, ← Multiset.map_add]
      exact Multiset.mem_map_of_mem f h0N
  · rw [if_neg hl']
    refine ⟨_, rfl, ?_⟩
    intro s L R ho h0N
    rw [rateIn_eq A _ _ _ _ ?_ N ?_ hN, classMult_map f finj, coeffIn_append, c0 s L R ho, c1 s L R ho, sK, if_neg hl']
    · unfold ncLight nc1 nc2
      push_cast; ring
    · intro i hi
      rcases List.mem_append.mp hi with hi | hi
      · exact h0 i hi
      · exact h1 i hi
    · rw [← f0, ← Multiset.map_add]
      exact Multiset.mem_map_of_mem f h0N

theorem CC_rates (hinj : Function.Injective A.name) (hmaj : ∀ s, A.majorana s = false) (θ : ℝ) (N a l l' : S)
    (hN : A.name N = hnlName) (f : Fin 4 → S) (hf : f = ![N, a, l, l']) (finj : Function.Injective f) :
    ∃ out, keepCC A c θ N a l l' = .ok out ∧ ∀ s (L R : Multiset (Fin 4)), OpenClass A (L.map f) (R.map f) →
      0 ∈ L + R → rateIn A out (f s) (L.map f) (R.map f) = ccRate s L R * (128 * c.GF ^ 2 * θ ^ 2) := by
  set Ms := [sterileM c θ 4 0 ⟨0, 2, 1, 3⟩] with hMs
  have m0 : ∀ x ∈ Ms, x.K = 0 ∧ [x.order.a, x.order.b, x.order.c, x.order.d].Perm (List.range 4) := by
    intro x hx
    rw [List.mem_singleton.mp hx]
    exact sterileM_ok c _ _ _ _ (by decide)
  have sK : sumK1 Ms = 128 * c.GF ^ 2 * θ ^ 2 := by
    simp only [sumK1, hMs, sterileM, weakM, List.map_cons, List.map_nil, List.sum_cons, List.sum_nil]; ring
  obtain ⟨i0, e0, h0, s0, -, -, c0⟩ := two_two_terms A hinj hmaj f finj 0 1 3 2 false true true false Ms m0
  obtain ⟨i1, e1, h1, s1, -, -, c1⟩ := two_two_terms A hinj hmaj f finj 1 0 2 3 false true true false Ms m0
  have f0 : f 0 = N := by rw [hf]; rfl
  have f1 : f 1 = a := by rw [hf]; rfl
  have f2 : f 2 = l := by rw [hf]; rfl
  have f3 : f 3 = l' := by rw [hf]; rfl
  refine ⟨i0.filter (fun i => namedSideSum A i (A.name l') (A.name N) = 0) ++
    i1.filter (fun i => namedSideSum A i (A.name l') (A.name N) = 0), ?_, ?_⟩
  · rw [f0, f1, f2, f3] at e0 e1
    unfold keepCC sterileCC pairOf
    simp only [List.map_cons, List.map_nil, bind, Except.bind, ← hMs, e0, e1]
    rfl
  · intro s L R ho h0N
    have k1 : ∀ ii : List (Integral4 S), (∀ i ∈ ii, ∀ x ∈ i.reaction, x.side = -1 ∨ x.side = 1) → ∀ i ∈ ii,
        InClass (f s) (L.map f) (R.map f) i → ((decide (namedSideSum A i (A.name l') (A.name N) = 0)) = true ↔
          R.count 3 + R.count 0 = L.count 3 + L.count 0) := by
      intro ii nn i hi hc
      rw [decide_eq_true_eq, namedSideSum_class A hinj i _ l' N (by rw [← f0, ← f3]; exact fun h => by simpa using finj h) _ _ hc (nn i hi), ← f0,
        ← f3, Multiset.count_map_eq_count' f _ finj, Multiset.count_map_eq_count' f _ finj,
        Multiset.count_map_eq_count' f _ finj, Multiset.count_map_eq_count' f _ finj]
      omega
    rw [rateIn_eq A _ _ _ _ ?_ N ?_ hN, classMult_map f finj, coeffIn_append, coeffIn_filter _ _ _ _ _ _ (k1 i0 s0),
      coeffIn_filter _ _ _ _ _ _ (k1 i1 s1), c0 s L R ho, c1 s L R ho, sK]
    · unfold ccRate cc1 cc2
      split_ifs <;> push_cast <;> ring
    · intro i hi
      rcases List.mem_append.mp hi with hi | hi
      · exact h0 i (List.mem_of_mem_filter hi)
      · exact h1 i (List.mem_of_mem_filter hi)
    · rw [← f0, ← Multiset.map_add]
      exact Multiset.mem_map_of_mem f h0N

/-! ## The processes -/

theorem open_two (a b d e : S) : OpenClass A {a, b} {d, e} :=
  ⟨by simp, fun h => by simp at h, fun h => by simp at h⟩

theorem open_decay (N x y z : S) (h : A.mass x + A.mass y + A.mass z < A.mass N) :
    OpenClass A {N} {x, y, z} ∧ OpenClass A {x, y, z} {N} := by
  have e : (Multiset.map A.mass {x, y, z}).sum = A.mass x + A.mass y + A.mass z := by simp [add_assoc]
  refine ⟨⟨by simp, fun _ => ?_, fun h => by simp at h⟩, ⟨by simp, fun h => by simp at h, fun _ => ?_⟩⟩
  all_goals
    rw [e]
    simpa using h

theorem balancedWith_of {n : ℕ} [NeZero n] (f : Fin n → S) (hf : Function.Injective f) (out : List (Integral4 S))
    (r : Fin n → Multiset (Fin n) → Multiset (Fin n) → ℕ) (K : ℝ)
    (H : ∀ s (L R : Multiset (Fin n)), OpenClass A (L.map f) (R.map f) → 0 ∈ L + R →
      rateIn A out (f s) (L.map f) (R.map f) = r s L R * K) (L R : Multiset (Fin n)) (k : ℕ)
    (o1 : OpenClass A (L.map f) (R.map f)) (o2 : OpenClass A (R.map f) (L.map f)) (h0 : 0 ∈ L + R)
    (c1 : ∀ s ∈ L, r s L R = L.count s * k) (c2 : ∀ s ∈ R, r s R L = R.count s * k) :
    BalancedWith A out (L.map f) (R.map f) (k * K) := by
  constructor
  · intro s hs
    obtain ⟨t, ht, rfl⟩ := Multiset.mem_map.mp hs
    rw [H t L R o1 h0, c1 t ht, Multiset.count_map_eq_count' f _ hf]
    push_cast; ring
  · intro s hs
    obtain ⟨t, ht, rfl⟩ := Multiset.mem_map.mp hs
    rw [H t R L o2 (by rwa [add_comm]), c2 t ht, Multiset.count_map_eq_count' f _ hf]
    push_cast; ring

/-- If the participants are balanced with any weight, one of them fixes the weight. -/
theorem not_balanced (out : List (Integral4 S)) (L R : Multiset S) (s t : S) (hs : s ∈ L) (ht : t ∈ L)
    (h : L.count t * rateIn A out s L R ≠ L.count s * rateIn A out t L R) : ¬ BalancedIn A out L R := by
  rintro ⟨w, h1, -⟩
  apply h
  rw [h1 s hs, h1 t ht]; ring

theorem inj3 (N a b : S) (ha : a ≠ N) (hb : b ≠ N) (hab : a ≠ b) : Function.Injective ![N, a, b] := by
  intro x y
  fin_cases x <;> fin_cases y <;> simp [ha, hb, hab, ha.symm, hb.symm, hab.symm]

theorem inj2 (N a : S) (ha : a ≠ N) : Function.Injective ![N, a] := by
  intro x y
  fin_cases x <;> fin_cases y <;> simp [ha, ha.symm]

theorem map2 {n : ℕ} (f : Fin n → S) (x y : Fin n) : ({x, y} : Multiset (Fin n)).map f = {f x, f y} := by simp
theorem map3 {n : ℕ} (f : Fin n → S) (x y z : Fin n) : ({x, y, z} : Multiset (Fin n)).map f = {f x, f y, f z} := by simp
theorem map1 {n : ℕ} (f : Fin n → S) (x : Fin n) : ({x} : Multiset (Fin n)).map f = {f x} := by simp

/-- Weight of a two-to-two process for one participant. -/
theorem rate_two {n : ℕ} [NeZero n] (f : Fin n → S) (out : List (Integral4 S))
    (r : Fin n → Multiset (Fin n) → Multiset (Fin n) → ℕ) (K : ℝ)
    (H : ∀ s (L R : Multiset (Fin n)), OpenClass A (L.map f) (R.map f) → 0 ∈ L + R →
      rateIn A out (f s) (L.map f) (R.map f) = r s L R * K) (s x y z w : Fin n) (k : ℕ)
    (h0 : (0 : Fin n) ∈ ({x, y} : Multiset (Fin n)) + {z, w}) (hr : r s {x, y} {z, w} = k) :
    rateIn A out (f s) {f x, f y} {f z, f w} = k * K := by
  have := H s {x, y} {z, w} (by rw [map2, map2]; exact open_two _ _ _ _) h0
  rwa [map2, map2, hr] at this

theorem balanced_two {n : ℕ} [NeZero n] (f : Fin n → S) (hf : Function.Injective f) (out : List (Integral4 S))
    (r : Fin n → Multiset (Fin n) → Multiset (Fin n) → ℕ) (K : ℝ)
    (H : ∀ s (L R : Multiset (Fin n)), OpenClass A (L.map f) (R.map f) → 0 ∈ L + R →
      rateIn A out (f s) (L.map f) (R.map f) = r s L R * K) (x y z w : Fin n) (k : ℕ)
    (h0 : (0 : Fin n) ∈ ({x, y} : Multiset (Fin n)) + {z, w})
    (c1 : ∀ s ∈ ({x, y} : Multiset (Fin n)), r s {x, y} {z, w} = ({x, y} : Multiset (Fin n)).count s * k)
    (c2 : ∀ s ∈ ({z, w} : Multiset (Fin n)), r s {z, w} {x, y} = ({z, w} : Multiset (Fin n)).count s * k) :
    BalancedWith A out {f x, f y} {f z, f w} (k * K) := by
  have := balancedWith_of f hf out r K H {x, y} {z, w} k (by rw [map2, map2]; exact open_two _ _ _ _)
    (by rw [map2, map2]; exact open_two _ _ _ _) h0 c1 c2
  rwa [map2, map2] at this

theorem balanced_decay {n : ℕ} [NeZero n] (f : Fin n → S) (hf : Function.Injective f) (out : List (Integral4 S))
    (r : Fin n → Multiset (Fin n) → Multiset (Fin n) → ℕ) (K : ℝ)
    (H : ∀ s (L R : Multiset (Fin n)), OpenClass A (L.map f) (R.map f) → 0 ∈ L + R →
      rateIn A out (f s) (L.map f) (R.map f) = r s L R * K) (y z w : Fin n) (k : ℕ)
    (hm : A.mass (f y) + A.mass (f z) + A.mass (f w) < A.mass (f 0))
    (c1 : ∀ s ∈ ({0} : Multiset (Fin n)), r s {0} {y, z, w} = ({0} : Multiset (Fin n)).count s * k)
    (c2 : ∀ s ∈ ({y, z, w} : Multiset (Fin n)), r s {y, z, w} {0} = ({y, z, w} : Multiset (Fin n)).count s * k) :
    BalancedWith A out {f 0} {f y, f z, f w} (k * K) := by
  obtain ⟨o1, o2⟩ := open_decay _ _ _ _ hm
  have := balancedWith_of f hf out r K H {0} {y, z, w} k (by rw [map1, map3]; exact o1) (by rw [map1, map3]; exact o2)
    (by simp) c1 c2
  rwa [map1, map3] at this

theorem rate_decay {n : ℕ} [NeZero n] (f : Fin n → S) (out : List (Integral4 S))
    (r : Fin n → Multiset (Fin n) → Multiset (Fin n) → ℕ) (K : ℝ)
    (H : ∀ s (L R : Multiset (Fin n)), OpenClass A (L.map f) (R.map f) → 0 ∈ L + R →
      rateIn A out (f s) (L.map f) (R.map f) = r s L R * K) (s y z w : Fin n) (k k' : ℕ)
    (hm : A.mass (f y) + A.mass (f z) + A.mass (f w) < A.mass (f 0))
    (c1 : r 0 {0} {y, z, w} = k) (c2 : r s {y, z, w} {0} = k') :
    rateIn A out (f 0) {f 0} {f y, f z, f w} = k * K ∧ rateIn A out (f s) {f y, f z, f w} {f 0} = k' * K := by
  obtain ⟨o1, o2⟩ := open_decay _ _ _ _ hm
  have h1 := H 0 {0} {y, z, w} (by rw [map1, map3]; exact o1) (by simp)
  have h2 := H s {y, z, w} {0} (by rw [map1, map3]; exact o2) (by simp)
  rw [map1, map3] at h1 h2
  exact ⟨by rw [h1, c1], by rw [h2, c2]⟩

/-- **C103 (scattering on other neutrinos).** Annihilation and decay have the same weight for all participants.  In the
scattering of the heavy neutrino on a neutrino `b` of another flavour, `b` has half of the weight of the others. -/
theorem C103_scattering_partial (hinj : Function.Injective A.name) (hmaj : ∀ s, A.majorana s = false) (θ : ℝ) (N a b : S)
    (hN : A.name N = hnlName) (ha : a ≠ N) (hb : b ≠ N) (hab : a ≠ b) (K : ℝ) (hK : K = 32 * c.GF ^ 2 * θ ^ 2) :
    ∃ out, keepScattering A c θ N a b = .ok out ∧
      BalancedWith A out {N, a} {b, b} K ∧
      (A.mass a + A.mass b + A.mass b < A.mass N → BalancedWith A out {N} {a, b, b} K) ∧
      rateIn A out N {N, b} {a, b} = 2 * K ∧ rateIn A out a {a, b} {N, b} = 2 * K ∧
      rateIn A out b {N, b} {a, b} = K ∧ rateIn A out b {a, b} {N, b} = K ∧
      (K ≠ 0 → ¬ BalancedIn A out {N, b} {a, b}) := by
  obtain ⟨out, e, H⟩ := scattering_rates c hinj hmaj θ N a b hN ha hb hab _ rfl
  rw [← hK] at H
  have hf := inj3 N a b ha hb hab
  have r1 : rateIn A out N {N, b} {a, b} = 2 * K := rate_two ![N, a, b] out _ K H 0 0 2 1 2 2 (by decide) (by decide)
  have r2 : rateIn A out b {N, b} {a, b} = K := by
    simpa using rate_two ![N, a, b] out _ K H 2 0 2 1 2 1 (by decide) (by decide)
  refine ⟨out, e, ?_, ?_, r1, rate_two ![N, a, b] out _ K H 1 1 2 0 2 2 (by decide) (by decide), r2, ?_, ?_⟩
  · simpa using balanced_two ![N, a, b] hf out _ K H 0 1 2 2 1 (by decide) (by decide) (by decide)
  · intro hm
    simpa using balanced_decay ![N, a, b] hf out _ K H 1 2 2 1 hm (by decide) (by decide)
  · simpa using rate_two ![N, a, b] out _ K H 2 1 2 0 2 1 (by decide) (by decide)
  · intro hK0
    refine not_balanced out _ _ N b (by simp) (by simp) ?_
    rw [r1, r2]
    simp only [Multiset.insert_eq_cons, Multiset.count_cons, Multiset.count_singleton, hb, hb.symm, if_true, if_false]
    intro h
    apply hK0
    norm_num at h
    linarith

/-- **C103 (scattering on the same flavour).** The decay has the same weight for all participants; the scattering has the
weight 3 for the heavy neutrino, 1 for the neutrino that scatters on it and 4 instead of 6 for the two that come out. -/
theorem C103_same_flavour_partial (hinj : Function.Injective A.name) (hmaj : ∀ s, A.majorana s = false) (θ : ℝ) (N a : S)
    (hN : A.name N = hnlName) (ha : a ≠ N) (K : ℝ) (hK : K = 64 * c.GF ^ 2 * θ ^ 2) :
    ∃ out, keepScattering A c θ N a a = .ok out ∧
      (A.mass a + A.mass a + A.mass a < A.mass N → BalancedWith A out {N} {a, a, a} K) ∧
      rateIn A out N {N, a} {a, a} = 3 * K ∧ rateIn A out a {N, a} {a, a} = K ∧ rateIn A out a {a, a} {N, a} = 4 * K ∧
      (K ≠ 0 → ¬ BalancedIn A out {N, a} {a, a}) := by
  obtain ⟨out, e, H⟩ := scattering_same_rates c hinj hmaj θ N a hN ha _ rfl
  rw [← hK] at H
  have hf := inj2 N a ha
  have r1 : rateIn A out N {N, a} {a, a} = 3 * K := rate_two ![N, a] out _ K H 0 0 1 1 1 3 (by decide) (by decide)
  have r2 : rateIn A out a {N, a} {a, a} = K := by
    simpa using rate_two ![N, a] out _ K H 1 0 1 1 1 1 (by decide) (by decide)
  refine ⟨out, e, ?_, r1, r2, rate_two ![N, a] out _ K H 1 1 1 0 1 4 (by decide) (by decide), ?_⟩
  · intro hm
    simpa using balanced_decay ![N, a] hf out _ K H 1 1 1 1 hm (by decide) (by decide)
  · intro hK0
    refine not_balanced out _ _ N a (by simp) (by simp) ?_
    rw [r1, r2]
    simp only [Multiset.insert_eq_cons, Multiset.count_cons, Multiset.count_singleton, ha, ha.symm, if_true, if_false]
    intro h
    apply hK0
    norm_num at h
    linarith

/-- **C103 (neutral current, muon or tau).** Annihilation and decay have the same weight for all participants; scattering on
the lepton changes the heavy neutrino only. -/
theorem C103_NC_heavy_partial (hinj : Function.Injective A.name) (hmaj : ∀ s, A.majorana s = false) (θ gL : ℝ) (N a l : S)
    (hN : A.name N = hnlName) (ha : a ≠ N) (hl : l ≠ N) (hal : a ≠ l) (hname : A.name l = "Muon" ∨ A.name l = "Tau") (K : ℝ)
    (hK : K = 128 * c.GF ^ 2 * θ ^ 2 * (gL ^ 2 + c.gR ^ 2)) :
    ∃ out, keepNC A c θ gL N a l = .ok out ∧
      BalancedWith A out {N, a} {l, l} K ∧
      (A.mass a + A.mass l + A.mass l < A.mass N → BalancedWith A out {N} {a, l, l} K) ∧
      rateIn A out N {N, l} {a, l} = 2 * K ∧ rateIn A out l {N, l} {a, l} = 0 ∧ rateIn A out a {a, l} {N, l} = 0 ∧
      rateIn A out l {a, l} {N, l} = 0 ∧ (K ≠ 0 → ¬ BalancedIn A out {N, l} {a, l}) := by
  obtain ⟨out, e, H⟩ := NC_rates c hinj hmaj θ gL N a l hN ha hl hal _ rfl
  rw [← hK] at H
  simp only [if_pos hname] at H
  have hf := inj3 N a l ha hl hal
  have r1 : rateIn A out N {N, l} {a, l} = 2 * K := rate_two ![N, a, l] out _ K H 0 0 2 1 2 2 (by decide) (by decide)
  have r2 : rateIn A out l {N, l} {a, l} = 0 := by
    simpa using rate_two ![N, a, l] out _ K H 2 0 2 1 2 0 (by decide) (by decide)
  refine ⟨out, e, ?_, ?_, r1, r2, ?_, ?_, ?_⟩
  · simpa using balanced_two ![N, a, l] hf out _ K H 0 1 2 2 1 (by decide) (by decide) (by decide)
  · intro hm
    simpa using balanced_decay ![N, a, l] hf out _ K H 1 2 2 1 hm (by decide) (by decide)
  · simpa using rate_two ![N, a, l] out _ K H 1 1 2 0 2 0 (by decide) (by decide)
  · simpa using rate_two ![N, a, l] out _ K H 2 1 2 0 2 0 (by decide) (by decide)
  · intro hK0
    refine not_balanced out _ _ N l (by simp) (by simp) ?_
    rw [r1, r2]
    simp only [Multiset.insert_eq_cons, Multiset.count_cons, Multiset.count_singleton, hl, hl.symm, if_true, if_false]
    intro h
    apply hK0
    norm_num at h
    linarith

/-- **C103 (neutral current, other leptons).** Scattering has the same weight for all participants; in annihilation and decay
the lepton has twice the weight it should. -/
theorem C103_NC_light_partial (hinj : Function.Injective A.name) (hmaj : ∀ s, A.majorana s = false) (θ gL : ℝ) (N a l : S)
    (hN : A.name N = hnlName) (ha : a ≠ N) (hl : l ≠ N) (hal : a ≠ l) (hname : ¬ (A.name l = "Muon" ∨ A.name l = "Tau")) (K : ℝ)
    (hK : K = 128 * c.GF ^ 2 * θ ^ 2 * (gL ^ 2 + c.gR ^ 2)) :
    ∃ out, keepNC A c θ gL N a l = .ok out ∧
      BalancedWith A out {N, l} {a, l} (2 * K) ∧
      rateIn A out N {N, a} {l, l} = K ∧ rateIn A out a {N, a} {l, l} = K ∧ rateIn A out l {l, l} {N, a} = 4 * K ∧
      (A.mass a + A.mass l + A.mass l < A.mass N →
        rateIn A out N {N} {a, l, l} = K ∧ rateIn A out a {a, l, l} {N} = K ∧ rateIn A out l {a, l, l} {N} = 4 * K) ∧
      (K ≠ 0 → ¬ BalancedIn A out {N, a} {l, l}) := by
  obtain ⟨out, e, H⟩ := NC_rates c hinj hmaj θ gL N a l hN ha hl hal _ rfl
  rw [← hK] at H
  simp only [if_neg hname] at H
  have hf := inj3 N a l ha hl hal
  have r1 : rateIn A out N {N, a} {l, l} = K := by
    simpa using rate_two ![N, a, l] out _ K H 0 0 1 2 2 1 (by decide) (by decide)
  have r2 : rateIn A out l {l, l} {N, a} = 4 * K := rate_two ![N, a, l] out _ K H 2 2 2 0 1 4 (by decide) (by decide)
  refine ⟨out, e, ?_, r1, ?_, r2, ?_, ?_⟩
  · exact balanced_two ![N, a, l] hf out _ K H 0 2 1 2 2 (by decide) (by decide) (by decide)
  · simpa using rate_two ![N, a, l] out _ K H 1 0 1 2 2 1 (by decide) (by decide)
  · intro hm
    obtain ⟨d1, d2⟩ := rate_decay ![N, a, l] out _ K H 1 1 2 2 1 1 hm (by decide) (by decide)
    obtain ⟨-, d3⟩ := rate_decay ![N, a, l] out _ K H 2 1 2 2 1 4 hm (by decide) (by decide)
    exact ⟨by simpa using d1, by simpa using d2, d3⟩
  · rintro hK0 ⟨w, w1, w2⟩
    have q1 := w1 N (by simp)
    have q2 := w2 l (by simp)
    rw [r1] at q1
    rw [r2] at q2
    simp only [Multiset.insert_eq_cons, Multiset.count_cons, Multiset.count_singleton, ha.symm, if_true, if_false] at q1 q2
    apply hK0
    norm_num at q1 q2
    linarith

/-- **C103 (charged current).** What is kept has the same weight for all participants.  Of the two scatterings, the one with
the lepton `l'` of the flavour of the neutrino on the side of the heavy neutrino is absent for all of them. -/
theorem C103_CC_partial (hinj : Function.Injective A.name) (hmaj : ∀ s, A.majorana s = false) (θ : ℝ) (N a l l' : S)
    (hN : A.name N = hnlName) (hd : [N, a, l, l'].Nodup) (K : ℝ) (hK : K = 128 * c.GF ^ 2 * θ ^ 2) :
    ∃ out, keepCC A c θ N a l l' = .ok out ∧
      BalancedWith A out {N, a} {l, l'} K ∧ BalancedWith A out {N, l} {a, l'} K ∧
      (A.mass a + A.mass l + A.mass l' < A.mass N → BalancedWith A out {N} {a, l, l'} K) ∧
      BalancedWith A out {N, l'} {a, l} 0 := by
  have hf : Function.Injective ![N, a, l, l'] := by
    simp only [List.nodup_cons, List.mem_cons, List.not_mem_nil, or_false, not_or, not_false_eq_true, List.nodup_nil,
      and_true] at hd
    obtain ⟨⟨h1, h2, h3⟩, ⟨h4, h5⟩, h6⟩ := hd
    intro x y
    fin_cases x <;> fin_cases y <;>
      simp [h1, h2, h3, h4, h5, h6, Ne.symm h1, Ne.symm h2, Ne.symm h3, Ne.symm h4, Ne.symm h5, Ne.symm h6]
  obtain ⟨out, e, H⟩ := CC_rates c hinj hmaj θ N a l l' hN _ rfl hf
  rw [← hK] at H
  refine ⟨out, e, ?_, ?_, ?_, ?_⟩
  · simpa using balanced_two ![N, a, l, l'] hf out _ K H 0 1 2 3 1 (by decide) (by decide) (by decide)
  · simpa using balanced_two ![N, a, l, l'] hf out _ K H 0 2 1 3 1 (by decide) (by decide) (by decide)
  · intro hm
    simpa using balanced_decay ![N, a, l, l'] hf out _ K H 1 2 3 1 hm (by decide) (by decide)
  · simpa using balanced_two ![N, a, l, l'] hf out _ K H 0 3 1 2 0 (by decide) (by decide) (by decide)

end
end PyBBN
