import Verif.Lemmas.DecayLaw
import Verif.Lemmas.DecayFamily
import Verif.Props.SecondLaw
/-!
# The decays generated from the library, as `integrate` evaluates them
-/
namespace PyBBN
open MeasureTheory

variable {ι : Type*} {S : Type*} [DecidableEq S] {A : LibAttr S} {K : ℝ} {D : Fin 4 → Integral4 S} {θ : Fin 4 → S}
  {σ : Fin 4 → Equiv.Perm (Fin 4)}

omit [DecidableEq S] in
theorem DecayFamily.specieAt_eq (F : DecayFamily A K D θ σ) (i j : Fin 4) : specieAt (D i) j = θ (σ i j) := by
  obtain ⟨x, h1, h2, -⟩ := F.reads i j
  unfold specieAt
  rw [h1]
  exact h2

theorem DecayFamily.mult (F : DecayFamily A K D θ σ) (hname : ∀ i, A.name (θ i) ≠ hnlName) (i : Fin 4) : multOf A (D i) = 1 := by
  choose x h1 h2 h3 using F.reads i
  have hr : (D i).reaction = List.ofFn x := by
    refine List.ext_getElem? fun n => ?_
    by_cases hn : n < 4
    · rw [h1 ⟨n, hn⟩, List.getElem?_ofFn, dif_pos hn]
    · rw [List.getElem?_eq_none (by rw [F.length]; omega), List.getElem?_eq_none (by rw [List.length_ofFn]; omega)]
  have hmem : ∀ y ∈ (D i).reaction, ∃ j, y = x j := by
    intro y hy
    rw [hr] at hy
    obtain ⟨j, rfl⟩ := List.mem_ofFn.mp hy
    exact ⟨j, rfl⟩
  have hside : ∀ y ∈ (D i).reaction, y.side = -1 ∨ y.side = 1 := by
    intro y hy
    obtain ⟨j, rfl⟩ := hmem y hy
    rw [h3]
    exact crossSide_or _ _
  have hhead : (D i).reaction.head?.map (·.specie) = some (D i).particle := by
    have h10 : (D i).reaction[0]? = some (x 0) := h1 0
    rw [List.head?_eq_getElem?, h10, F.particle]
    exact congrArg some ((h2 0).trans (by rw [F.own]))
  have hnd : ((D i).reaction.map (·.specie)).Nodup := by
    rw [hr, List.map_ofFn, List.nodup_ofFn]
    intro a b h
    have : θ (σ i a) = θ (σ i b) := by rw [← h2, ← h2]; exact h
    exact (σ i).injective (F.distinct this)
  have hsub : ∀ t : ℤ, (speciesOn t (D i).reaction).Sublist ((D i).reaction.map (·.specie)) := fun t =>
    (List.filter_sublist).map _
  refine multOf_light A (D i) (D i).particle _ _ ⟨rfl, rfl, rfl⟩ hhead hside ?_ ?_ ?_
  · rw [Multiset.coe_card, Multiset.coe_card]
    unfold speciesOn
    rw [List.length_map, List.length_map, ← F.length i]
    have : ∀ l : List (Item S), (∀ y ∈ l, y.side = -1 ∨ y.side = 1) →
        (l.filter (·.side = -1)).length + (l.filter (·.side = 1)).length = l.length := by
      intro l hl
      induction l with
      | nil => rfl
      | cons y l ih =>
        have ih' := ih fun z hz => hl z (List.mem_cons_of_mem _ hz)
        rcases hl y List.mem_cons_self with h | h <;> simp [h] <;> omega
    exact this _ hside
  · intro y hy
    rw [Multiset.mem_add, Multiset.mem_coe, Multiset.mem_coe] at hy
    have : y ∈ (D i).reaction.map (·.specie) := by
      rcases hy with h | h <;> exact (hsub _).subset h
    obtain ⟨z, hz, rfl⟩ := List.mem_map.mp this
    obtain ⟨j, rfl⟩ := hmem z hz
    rw [h2]
    exact hname _
  · intro _
    rw [Multiset.coe_count]
    refine List.count_eq_one_of_mem ((hsub _).nodup hnd) ?_
    unfold speciesOn
    refine List.mem_map.mpr ⟨x 0, List.mem_filter.mpr ⟨?_, ?_⟩, ?_⟩
    · exact List.mem_of_getElem? (h1 0)
    · rw [h3]
      unfold crossSide
      split_ifs <;> simp_all
    · rw [h2, F.own, F.particle]

/-- The runs of the four integrals of a decay see the reaction of the parent. -/
theorem DecayFamily.seen (F : DecayFamily A K D θ σ) {sp : S → Species} {st : S → PState ι} {GF : ℝ} {c : Fin 4 → Int4 ι}
    (hrun : ∀ i, Runs A sp st GF (D i) (c i)) :
    (∀ i j, (c i).sp j = sp (θ (σ i j)) ∧ (c i).st j = st (θ (σ i j)) ∧ (c i).side j = crossSide (if i = 0 then 1 else 3) j) ∧
      ∀ i, i ≠ 0 → SeenFrom4 (c 0) (c i) (σ i) := by
  have h : ∀ i j, (c i).sp j = sp (θ (σ i j)) ∧ (c i).st j = st (θ (σ i j)) ∧ (c i).side j = crossSide (if i = 0 then 1 else 3) j := by
    intro i j
    obtain ⟨x, a1, a2, a3⟩ := F.reads i j
    obtain ⟨y, b1, b2, b3, b4⟩ := (hrun i).reads j
    obtain rfl : y = x := Option.some.inj (b1.symm.trans a1)
    rw [b2, b3, b4, a2, a3]
    exact ⟨rfl, rfl, rfl⟩
  refine ⟨h, fun i hi => ⟨fun j => ?_, fun j => ?_, fun j => ?_, ?_, ?_⟩⟩
  · rw [(h i j).1, (h 0 _).1, F.first]; rfl
  · rw [(h i j).2.1, (h 0 _).2.1, F.first]; rfl
  · rw [(h i j).2.2, (h 0 _).2.2, if_neg hi, if_pos rfl]
    by_cases hj : j = 3
    · subst hj
      rw [F.parent i hi]; decide
    · have hne : σ i j ≠ 0 := by
        rw [← F.parent i hi]
        exact fun e => hj ((σ i).injective e)
      have g : ∀ j k : Fin 4, j ≠ 3 → k ≠ 0 → crossSide 3 j = -crossSide 1 k := by decide
      exact g _ _ hj hne
  · rw [(hrun i).Ms, (hrun i).GF, (hrun 0).Ms, (hrun 0).GF]
    exact F.same i GF
  · rw [(hrun i).GF, (hrun 0).GF]

/-- The totals of the arrays of one decay. -/
theorem DecayFamily.law (F : DecayFamily A K D θ σ) (hdirac : ∀ s, A.majorana s = false) (hname : ∀ i, A.name (θ i) ≠ hnlName)
    (hmass : ∀ s, 0 ≤ A.mass s) {sp : S → Species} {st : S → PState ι} {GF : ℝ} {c : Fin 4 → Int4 ι} (p : Params)
    (sched : Fin 4 → List (List ℕ)) (P : S → ℝ) (haT : 0 < p.aT) (ha : 0 < p.a) (hrun : ∀ i, Runs A sp st GF (D i) (c i))
    (hpl : ∀ i, Plain4 (c i)) (hcov : ∀ i, Covers4 (c i) (sched i)) (hspec : ∀ i, (sp (θ i)).mass = A.mass (θ i) ∧ 0 ≤ P (θ i))
    (hwhole : ∀ y ∈ ((c 0).sp 0).grid, y ≤ (c 0).ub)
    (hb : ∀ i, i ≠ 0 → (c i).max3 = P (specieAt (D i) 3) ∧ CutBound4 (c i) p ∧
      energyOf (((c i).sp 3).mass * p.a) (P (specieAt (D i) 3)) ≤
        energyOf (((c i).sp 0).mass * p.a) (P (specieAt (D i) 0)) + ((c i).sp 1).mass * p.a + ((c i).sp 2).mass * p.a)
    (f : S → ℝ → ℝ) (hfm : ∀ s, Measurable (f s)) (B : ℝ)
    (hf : ∀ i q, 0 ≤ q → occAt (toC (sp (θ i)) (st (θ i)) p) q = .ok (f (θ i) q) ∧ 0 ≤ f (θ i) q ∧ f (θ i) q ≤ B) :
    ∃ J : Fin 4 → ℝ → ℝ, (∀ i, Returns4 (c i) p (sched i) (J i)) ∧
      ∀ q : S → ℝ → ℝ, (∀ s, Measurable (q s)) → (∀ s R, ∃ C, ∀ E, |E| ≤ R → |q s E| ≤ C) →
        Nice3 (fun x y z => (q (θ 0) (p.aT * (x + y + z)) - q (θ 1) (p.aT * x) - q (θ 2) (p.aT * y) - q (θ 3) (p.aT * z)) *
          events4 ((c 0).reaction p) ((c 0).Ms.map (toCM GF)) (fun i => f (θ i)) (P (θ 0) / p.aT) ![x + y + z, x, y, z]) ∧
        ∑ i, ((c i).sp 0).dof * ∫ y in Set.Ioc 0 (P (D i).particle),
            y ^ 2 * (q (D i).particle (energyOf (((c i).sp 0).mass * p.a) y) * J i y) =
          2 * (p.aT ^ 3 * common4 GF p * ∫ x, ∫ y, ∫ z,
            (q (θ 0) (p.aT * (x + y + z)) - q (θ 1) (p.aT * x) - q (θ 2) (p.aT * y) - q (θ 3) (p.aT * z)) *
              events4 ((c 0).reaction p) ((c 0).Ms.map (toCM GF)) (fun i => f (θ i)) (P (θ 0) / p.aT) ![x + y + z, x, y, z]) := by
  obtain ⟨hr, hseen⟩ := F.seen hrun
  have e0 : ∀ j, (c 0).sp j = sp (θ j) := fun j => by rw [(hr 0 j).1, F.first]; rfl
  have t0 : ∀ j, (c 0).st j = st (θ j) := fun j => by rw [(hr 0 j).2.1, F.first]; rfl
  have ei : ∀ i, (c i).sp 0 = sp (θ i) := fun i => by rw [(hr i 0).1, F.own]
  have s0 : ∀ j, (c 0).side j = crossSide 1 j := fun j => by rw [(hr 0 j).2.2, if_pos rfl]
  obtain ⟨y, hy, -, -, hK, hbij⟩ := F.elem 0
  have hMs : (c 0).Ms = [y.toC] := by rw [(hrun 0).Ms, hy]; rfl
  have hGF : (c 0).GF = GF := (hrun 0).GF
  have hw : ∀ i, (c i).weight = ((c i).sp 0).dof / 2 := by
    intro i
    unfold Int4.weight
    rw [(hrun i).mult, F.mult hname, (hrun i).majorana, hdirac, div_one]
    rfl
  obtain ⟨J, hJ, htot⟩ := decay4_law c p sched (P (θ 0)) σ F.own F.parent haT ha
    (by rw [s0]; decide) (fun i hi => by rw [s0]; exact (by decide : ∀ i : Fin 4, i ≠ 0 → crossSide 1 i = 1) i hi) hseen hpl
    (by
      rw [e0, (hspec 0).1]
      have := F.isOpen
      linarith [hmass (θ 1), hmass (θ 2), hmass (θ 3)])
    (fun i => by rw [e0, (hspec i).1]; exact hmass _)
    (by
      rw [e0, e0, e0, e0, (hspec 0).1, (hspec 1).1, (hspec 2).1, (hspec 3).1]
      exact F.isOpen.le)
    (by rw [hMs]; exact List.cons_ne_nil _ _)
    (by
      intro M hM
      rw [hMs] at hM
      rw [List.mem_singleton.mp hM]
      exact hK)
    (by
      intro M hM
      rw [hMs] at hM
      rw [List.mem_singleton.mp hM]
      exact hbij)
    (hspec 0).2
    (fun i hi => by rw [(hb i hi).1, F.specieAt_eq, F.parent i hi])
    hwhole (fun i hi => (hb i hi).2.1) hcov (fun i => f (θ i)) (fun i => hfm _) B
    (fun i q hq => by rw [e0, t0]; exact hf i q hq)
    (fun i => P (θ i)) rfl (fun i => (hspec i).2)
    (by
      intro i hi
      have := (hb i hi).2.2
      rw [F.specieAt_eq, F.specieAt_eq, (hr i 0).1, (hr i 1).1, (hr i 2).1, (hr i 3).1, F.parent i hi, F.own] at this
      rw [e0, e0, e0, e0]
      exact this)
  refine ⟨J, hJ, fun q h1 h2 => ?_⟩
  obtain ⟨hn, ht⟩ := htot (fun i => q (θ i)) (fun i => h1 _) (by
    intro R
    choose C hC using fun i => h2 (θ i) R
    refine ⟨∑ i, |C i|, fun i E hE => (hC i E hE).trans ((le_abs_self _).trans ?_)⟩
    exact Finset.single_le_sum (f := fun i => |C i|) (fun _ _ => abs_nonneg _) (Finset.mem_univ i))
  rw [hGF] at hn ht
  refine ⟨hn, ?_⟩
  rw [← ht, Finset.mul_sum]
  refine Finset.sum_congr rfl fun i _ => ?_
  rw [hw, F.particle, ei, e0]
  ring

/-- Whatever is additive in a decay is conserved by its arrays. -/
theorem DecayFamily.side (F : DecayFamily A K D θ σ) {sp : S → Species} {st : S → PState ι} {GF : ℝ} {c : Fin 4 → Int4 ι}
    (hrun : ∀ i, Runs A sp st GF (D i) (c i)) (q : S → ℝ → ℝ)
    (hq : ∀ E : Fin 4 → ℝ, ∑ j, ((c 0).side j : ℝ) * E j = 0 → ∑ j, ((c 0).side j : ℝ) * q (specieAt (D 0) j) (E j) = 0) :
    ∀ x y z w, x = y + z + w → q (θ 0) x = q (θ 1) y + q (θ 2) z + q (θ 3) w := by
  intro x y z w h
  have hr := (F.seen hrun).1
  have s0 : ∀ j, (c 0).side j = crossSide 1 j := fun j => by rw [(hr 0 j).2.2, if_pos rfl]
  have := hq ![x, y, z, w]
  simp only [Fin.sum_univ_four, s0, F.specieAt_eq, F.first, Equiv.Perm.one_apply] at this
  simp [crossSide] at this
  have g := this (by linarith)
  linarith

end PyBBN
