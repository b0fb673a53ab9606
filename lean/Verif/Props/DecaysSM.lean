import Verif.Lemmas.DecayRuns
/-!
# C111: balance and second law of all reactions of the Standard Model

The declarations of `leptons_CC` generate scatterings and, if a lepton is heavy enough, decays such as `μ → e + ν_μ + ν_e` and the
reactions of its products.  Specification: all integrals of `neutrino_interactions` and `lepton_interactions` together, as
`integrate` evaluates them, exchange energy between the species without loss and do not decrease the entropy.  Nothing of this
is stated about one integral: the arrays of the four particles of a decay are generated from two declarations.
-/
namespace PyBBN
open MeasureTheory

section
variable {ι : Type*} {S : Type*} [DecidableEq S] {A : LibAttr S}

omit [DecidableEq S] in
/-- Occupation numbers of the species of a list. -/
theorem regular_choice (l : List S) (C : S → CParticle) (h : ∀ s ∈ l, Regular (C s)) :
    ∃ f : S → ℝ → ℝ, (∀ s, Measurable (f s)) ∧ (∀ s, ∃ B, ∀ q, 0 ≤ q → |f s q| ≤ B) ∧
      ∀ s ∈ l, ∀ q, 0 ≤ q → occAt (C s) q = .ok (f s q) ∧ 0 ≤ f s q := by
  classical
  have : ∀ s, ∃ f : ℝ → ℝ, Measurable f ∧ (∃ B, ∀ q, 0 ≤ q → |f q| ≤ B) ∧ (s ∈ l → ∀ q, 0 ≤ q → occAt (C s) q = .ok (f q) ∧ 0 ≤ f q) := by
    intro s
    by_cases hs : s ∈ l
    · obtain ⟨f, B, hm, hf⟩ := h s hs
      exact ⟨f, hm, ⟨B, fun q hq => by rw [abs_of_nonneg (hf q hq).2.1]; exact (hf q hq).2.2⟩,
        fun _ q hq => ⟨(hf q hq).1, (hf q hq).2.1⟩⟩
    · exact ⟨fun _ => 0, measurable_const, ⟨0, fun _ _ => by simp⟩, fun h => absurd h hs⟩
  choose f hm hb hf using this
  exact ⟨f, hm, hb, hf⟩

omit [DecidableEq S] in
/-- The weight of the entropy as a function of the momentum and of the energy. -/
theorem floor_momentum (sp : S → Species) (st : S → PState ι) (p : Params) (haT : 0 < p.aT) (f : S → ℝ → ℝ) (ε : ℝ) (s : S) (Q : ℝ)
    (J : ℝ → ℝ) :
    ∫ y in Set.Ioc 0 Q, y ^ 2 * ((Real.log (max (1 - (sp s).eta * f s (y / p.aT)) ε) - Real.log (max (f s (y / p.aT)) ε)) * J y) =
      ∫ y in Set.Ioc 0 Q, y ^ 2 *
        (floorWeight (fun s => toC (sp s) (st s) p) f ε s (energyOf ((sp s).mass * p.a) y / p.aT) * J y) := by
  refine setIntegral_congr_fun measurableSet_Ioc fun y hy => ?_
  have hy0 : 0 ≤ y / p.aT := div_nonneg hy.1.le haT.le
  have e1 : energyOf ((sp s).mass * p.a) y / p.aT = energyOf ((sp s).mass * p.a / p.aT) (y / p.aT) := by
    rw [energyOf_div _ y p.aT haT]; field_simp
  unfold floorWeight
  dsimp only
  rw [e1]
  change _ = y ^ 2 * ((Real.log (max (1 - ((sp s).eta : ℝ) * f s (momOf ((sp s).mass * p.a / p.aT)
    (energyOf ((sp s).mass * p.a / p.aT) (y / p.aT)))) ε) -
    Real.log (max (f s (momOf ((sp s).mass * p.a / p.aT) (energyOf ((sp s).mass * p.a / p.aT) (y / p.aT)))) ε)) * J y)
  rw [momOf_energyOf _ _ hy0]

/-- The decays among the generated integrals. -/
theorem sm_decays (c : LibConst) (leptons neutrinos : List S) (ok : Light A neutrinos leptons) (o1 o2 : List (List (Integral4 S)))
    (e1 : (neutrinoInteractions A c leptons neutrinos).mapM (Decl.integrals A) = .ok o1)
    (e2 : (leptonInteractions A c leptons neutrinos).mapM (Decl.integrals A) = .ok o2)
    (l : List (Integral4 S)) (hl : l = (o1.flatten ++ o2.flatten).filter (fun i => ¬ TwoTwo i))
    (sp : S → Species) (st : S → PState ι) (GF : ℝ) (p : Params) (P : S → ℝ) (r : Fin l.length → Int4 ι)
    (sched : Fin l.length → List (List ℕ)) (haT : 0 < p.aT) (ha : 0 < p.a) (hrun : ∀ n : Fin l.length, Runs A sp st GF l[(n : ℕ)] (r n))
    (hpl : ∀ n, Plain4 (r n)) (hcov : ∀ n, Covers4 (r n) (sched n))
    (hspec : ∀ s ∈ neutrinos ++ leptons, (sp s).mass = A.mass s ∧ 0 ≤ P s)
    (hwhole : ∀ n, (r n).side 1 = 1 → ∀ y ∈ ((r n).sp 0).grid, y ≤ (r n).ub)
    (hb : ∀ n : Fin l.length, (r n).side 1 = -1 → (r n).max3 = P (specieAt l[(n : ℕ)] 3) ∧ CutBound4 (r n) p ∧
      energyOf (((r n).sp 3).mass * p.a) (P (specieAt l[(n : ℕ)] 3)) ≤
        energyOf (((r n).sp 0).mass * p.a) (P (specieAt l[(n : ℕ)] 0)) + ((r n).sp 1).mass * p.a + ((r n).sp 2).mass * p.a)
    (f : S → ℝ → ℝ) (hfm : ∀ s, Measurable (f s)) (hfb : ∀ s, ∃ B, ∀ q, 0 ≤ q → |f s q| ≤ B)
    (hf : ∀ s ∈ neutrinos ++ leptons, ∀ q, 0 ≤ q → occAt (toC (sp s) (st s) p) q = .ok (f s q) ∧ 0 ≤ f s q) :
    ∃ J : Fin l.length → ℝ → ℝ, (∀ n, Returns4 (r n) p (sched n) (J n)) ∧
      (∀ q : S → ℝ → ℝ, (∀ s, Measurable (q s)) → (∀ s R, ∃ C, ∀ E, |E| ≤ R → |q s E| ≤ C) →
        (∀ (n : Fin l.length) (E : Fin 4 → ℝ), ∑ j, ((r n).side j : ℝ) * E j = 0 →
          ∑ j, ((r n).side j : ℝ) * q (specieAt l[(n : ℕ)] j) (E j) = 0) →
        ∑ n : Fin l.length, ((r n).sp 0).dof * ∫ y in Set.Ioc 0 (P l[(n : ℕ)].particle),
          y ^ 2 * (q l[(n : ℕ)].particle (energyOf (((r n).sp 0).mass * p.a) y) * J n y) = 0) ∧
      ((∀ s ∈ neutrinos ++ leptons, ∀ q, 0 ≤ q → (sp s).fermion = true → f s q ≤ 1) → 0 ≤ p.H → 0 ≤ p.x →
        ∃ C, 0 ≤ C ∧ ∀ ε, 0 < ε → ε ≤ 1 → -(C * (ε * (1 + |Real.log ε|))) ≤
          ∑ n : Fin l.length, ((r n).sp 0).dof * ∫ y in Set.Ioc 0 (P l[(n : ℕ)].particle),
            y ^ 2 * ((Real.log (max (1 - ((r n).sp 0).eta * f l[(n : ℕ)].particle (y / p.aT)) ε) -
              Real.log (max (f l[(n : ℕ)].particle (y / p.aT)) ε)) * J n y)) := by
  obtain ⟨Ds, hperm, hfam⟩ := lepton_decays c leptons neutrinos ok o2 e2
  have hl' : l.Perm (Ds.flatMap List.ofFn) := by
    have h0 : o1.flatten.filter (fun i => ¬ TwoTwo i) = [] := by
      refine List.filter_eq_nil_iff.mpr fun i hi => ?_
      have := C107_only_scatterings c leptons neutrinos ok o1 e1 i hi
      simp [this]
    rw [hl, List.filter_append, h0, List.nil_append]
    exact hperm
  clear hl
  obtain ⟨e, he⟩ := family_index l Ds hl'
  choose θ σ F hθ using fun k : Fin Ds.length => hfam _ (List.getElem_mem k.2)
  have hrun' : ∀ (k : Fin Ds.length) (i : Fin 4), Runs A sp st GF (Ds[(k : ℕ)] i) (r (e (k, i))) := by
    intro k i
    rw [← he]
    exact hrun _
  have hseen := fun k => (F k).seen (hrun' k)
  have hside0 : ∀ k, (r (e (k, 0))).side 1 = 1 := fun k => by rw [((hseen k).1 0 1).2.2, if_pos rfl]; decide
  have hside1 : ∀ k i, i ≠ 0 → (r (e (k, i))).side 1 = -1 := fun k i hi => by rw [((hseen k).1 i 1).2.2, if_neg hi]; decide
  choose B hB using hfb
  have law := fun k => (F k).law ok.dirac (fun i => ok.name _ (hθ k i)) ok.mass p (fun i => sched (e (k, i))) P haT ha (hrun' k)
    (fun i => hpl _) (fun i => hcov _) (fun i => hspec _ (hθ k i)) (hwhole _ (hside0 k))
    (fun i hi => by have := hb _ (hside1 k i hi); rw [he] at this; exact this) f hfm (∑ i, |B (θ k i)|)
    (fun i q hq => by
      obtain ⟨h1, h2⟩ := hf _ (hθ k i) q hq
      refine ⟨h1, h2, (le_abs_self _).trans ((hB _ q hq).trans ((le_abs_self _).trans ?_))⟩
      exact Finset.single_le_sum (f := fun i => |B (θ k i)|) (fun _ _ => abs_nonneg _) (Finset.mem_univ i))
  choose J hJ htot using law
  have hre : ∀ G : Fin l.length → ℝ, ∑ n, G n = ∑ k : Fin Ds.length, ∑ i : Fin 4, G (e (k, i)) := by
    intro G
    rw [← e.sum_comp, Fintype.sum_prod_type]
  have hes : ∀ n, e ((e.symm n).1, (e.symm n).2) = n := fun n => e.apply_symm_apply n
  refine ⟨fun n => J (e.symm n).1 (e.symm n).2, fun n => ?_, ?_, ?_⟩
  · have := hJ (e.symm n).1 (e.symm n).2
    rw [hes] at this
    exact this
  · intro q h1 h2 h3
    rw [hre]
    refine Finset.sum_eq_zero fun k _ => ?_
    have ht := (htot k q h1 h2).2
    rw [events4_additive _ _ _ _ _ (fun i => q (θ k i)) ((F k).side (hrun' k) q (by
      have := h3 (e (k, 0))
      rw [he] at this
      exact this)), mul_zero, mul_zero] at ht
    refine Eq.trans ?_ ht
    refine Finset.sum_congr rfl fun i _ => ?_
    dsimp only
    rw [he, e.symm_apply_apply]
  · intro hpauli hH hx
    have hcom : 0 ≤ common4 GF p := by
      unfold common4
      have : 0 ≤ (if p.log then 1 else p.x) := by split_ifs <;> [exact zero_le_one; exact hx]
      have h5 : 0 ≤ p.aT / p.a := (div_pos haT ha).le
      positivity
    have hk : 0 ≤ p.aT ^ 3 * common4 GF p := by positivity
    set M : ℝ := 1 + ∑ k, ∑ i, |B (θ k i)| with hM
    have hM1 : 1 ≤ M := by
      rw [hM]
      have : 0 ≤ ∑ k, ∑ i, |B (θ k i)| := Finset.sum_nonneg fun _ _ => Finset.sum_nonneg fun _ _ => abs_nonneg _
      linarith
    have hfM : ∀ k i q, 0 ≤ q → 0 ≤ f (θ k i) q ∧ 1 + f (θ k i) q ≤ M := by
      intro k i q hq
      refine ⟨(hf _ (hθ k i) q hq).2, ?_⟩
      have h1 := (le_abs_self _).trans ((hB (θ k i) q hq).trans (le_abs_self _))
      have h2 : |B (θ k i)| ≤ ∑ i, |B (θ k i)| :=
        Finset.single_le_sum (f := fun i => |B (θ k i)|) (fun _ _ => abs_nonneg _) (Finset.mem_univ i)
      have h3 : ∑ i, |B (θ k i)| ≤ ∑ k, ∑ i, |B (θ k i)| :=
        Finset.single_le_sum (f := fun k => ∑ i, |B (θ k i)|) (fun _ _ => Finset.sum_nonneg fun _ _ => abs_nonneg _) (Finset.mem_univ k)
      linarith
    have e0 : ∀ k j, (r (e (k, 0))).reaction p j = ⟨toC (sp (θ k j)) (st (θ k j)) p, crossSide 1 j⟩ := by
      intro k j
      obtain ⟨a1, a2, a3⟩ := (hseen k).1 0 j
      rw [(F k).first, Equiv.Perm.one_apply] at a1 a2
      unfold Int4.reaction
      rw [a1, a2, a3, if_pos rfl]
    have elow := fun k => events4_law ((r (e (k, 0))).reaction p) ((r (e (k, 0))).Ms.map (toCM GF)) (fun i => f (θ k i))
      (P (θ k 0) / p.aT) (by rw [e0]; exact (by decide : crossSide 1 0 = -1))
      (fun i hi => by rw [e0]; exact (by decide : ∀ i : Fin 4, i ≠ 0 → crossSide 1 i = 1) i hi)
      (fun i => by
        rw [e0]
        change 0 ≤ (sp (θ k i)).mass * p.a / p.aT
        rw [(hspec _ (hθ k i)).1]
        have := ok.mass (θ k i)
        positivity)
      (by
        intro m hm
        obtain ⟨y, hy, -, -, -, hbij⟩ := (F k).elem 0
        rw [(hrun' k 0).Ms, hy] at hm
        rw [List.mem_singleton.mp hm]
        exact hbij)
      (by
        intro m hm
        obtain ⟨y, hy, h1, h2, -⟩ := (F k).elem 0
        rw [(hrun' k 0).Ms, hy] at hm
        rw [List.mem_singleton.mp hm]
        change 0 ≤ y.K1 / (32 * GF ^ 2) ∧ 0 ≤ y.K2 / (32 * GF ^ 2)
        rw [h1, h2]
        constructor <;> positivity)
      M hM1
      (by
        intro i q hq
        obtain ⟨h1, h2⟩ := hfM k i q hq
        rw [e0]
        refine ⟨h1, by linarith, ?_⟩
        change 0 ≤ 1 - ((sp (θ k i)).eta : ℝ) * f (θ k i) q ∧ 1 - ((sp (θ k i)).eta : ℝ) * f (θ k i) q ≤ M
        have h3 := hpauli _ (hθ k i) q hq
        unfold Species.eta
        cases hfer : (sp (θ k i)).fermion with
        | true =>
          have h4 := h3 hfer
          simp only [if_true]
          push_cast
          constructor <;> linarith
        | false =>
          simp only [Bool.false_eq_true, if_false]
          push_cast
          constructor <;> linarith)
    choose C hC hlow using elow
    have hCs : 0 ≤ ∑ k, C k := Finset.sum_nonneg fun k _ => hC k
    refine ⟨2 * (p.aT ^ 3 * common4 GF p * ∑ k, C k), by positivity, fun ε hε hε1 => ?_⟩
    obtain ⟨hqm, hqb⟩ := floorWeight_nice (sp := fun s => toC (sp s) (st s) p) hfm (fun s => ⟨B s, hB s⟩) ε hε
    have hdiv : ∀ a : ℝ, p.aT * a / p.aT = a := fun a => by field_simp
    rw [hre]
    have hterm : ∀ k, -(2 * (p.aT ^ 3 * common4 GF p * C k) * (ε * (1 + |Real.log ε|))) ≤
        ∑ i : Fin 4, ((r (e (k, i))).sp 0).dof * ∫ y in Set.Ioc 0 (P l[(e (k, i) : ℕ)].particle),
          y ^ 2 * ((Real.log (max (1 - ((r (e (k, i))).sp 0).eta * f l[(e (k, i) : ℕ)].particle (y / p.aT)) ε) -
            Real.log (max (f l[(e (k, i) : ℕ)].particle (y / p.aT)) ε)) * J (e.symm (e (k, i))).1 (e.symm (e (k, i))).2 y) := by
      intro k
      obtain ⟨hn, ht⟩ := htot k (fun s E => floorWeight (fun s => toC (sp s) (st s) p) f ε s (E / p.aT))
        (fun s => (hqm s).comp (measurable_id.div_const _)) (by
          intro s R
          obtain ⟨D, hD⟩ := hqb s (R / p.aT)
          refine ⟨D, fun E hE => hD _ ?_⟩
          rw [abs_div, abs_of_pos haT]
          exact div_le_div_of_nonneg_right hE haT.le)
      simp only [hdiv] at hn ht
      have low := hlow k ε hε hε1 (fun i => floorWeight (fun s => toC (sp s) (st s) p) f ε (θ k i))
        (fun i E => by rw [e0]; rfl) hn
      have eq : ∀ i : Fin 4, ((r (e (k, i))).sp 0).dof * ∫ y in Set.Ioc 0 (P l[(e (k, i) : ℕ)].particle),
          y ^ 2 * ((Real.log (max (1 - ((r (e (k, i))).sp 0).eta * f l[(e (k, i) : ℕ)].particle (y / p.aT)) ε) -
            Real.log (max (f l[(e (k, i) : ℕ)].particle (y / p.aT)) ε)) * J (e.symm (e (k, i))).1 (e.symm (e (k, i))).2 y) =
          ((r (e (k, i))).sp 0).dof * ∫ y in Set.Ioc 0 (P (Ds[(k : ℕ)] i).particle), y ^ 2 *
            (floorWeight (fun s => toC (sp s) (st s) p) f ε (Ds[(k : ℕ)] i).particle
              (energyOf (((r (e (k, i))).sp 0).mass * p.a) y / p.aT) * J k i y) := by
        intro i
        have a1 : (r (e (k, i))).sp 0 = sp (Ds[(k : ℕ)] i).particle := by
          rw [((hseen k).1 i 0).1, (F k).own, (F k).particle]
        rw [he, e.symm_apply_apply, a1, floor_momentum sp st p haT]
      rw [Finset.sum_congr rfl fun i _ => eq i, ht]
      have := mul_le_mul_of_nonneg_left low hk
      linarith
    refine le_trans (le_of_eq ?_) (Finset.sum_le_sum fun k _ => hterm k)
    rw [Finset.sum_neg_distrib, ← Finset.sum_mul, ← Finset.mul_sum, ← Finset.mul_sum]

omit [DecidableEq S] in
/-- Positions in a list and in its two parts. -/
theorem split_index {α : Type*} (l l1 l2 : List α) (hp : (l1 ++ l2).Perm l) :
    ∃ e : Fin l1.length ⊕ Fin l2.length ≃ Fin l.length,
      (∀ n, l[(e (.inl n) : ℕ)] = l1[(n : ℕ)]) ∧ ∀ n, l[(e (.inr n) : ℕ)] = l2[(n : ℕ)] := by
  classical
  obtain ⟨e, he⟩ := equiv_of_count (Sum.elim (fun n : Fin l1.length => l1[(n : ℕ)]) (fun n : Fin l2.length => l2[(n : ℕ)]))
    (fun n : Fin l.length => l[(n : ℕ)]) (by
      intro a
      have c2 : ∀ l : List α, (∑ n : Fin l.length, if l[(n : ℕ)] = a then 1 else 0) = (l.map fun x => if x = a then 1 else 0).sum := by
        intro l
        rw [← Fin.sum_univ_fun_getElem]
      have h := (hp.map fun x => if x = a then 1 else 0).sum_eq
      rw [List.map_append, List.sum_append, ← c2, ← c2, ← c2] at h
      rw [Nat.card_eq_fintype_card, Fintype.card_subtype, Finset.card_filter, Fintype.sum_sum_type, Nat.card_eq_fintype_card,
        Fintype.card_subtype, Finset.card_filter, ← h]
      rfl)
  exact ⟨e, fun n => he (.inl n), fun n => he (.inr n)⟩

/-- **C111, decays.** All decays and inverse decays generated from the declarations, evaluated by `integrate`, on grids which end
high enough to hold the products.  The parent may have any spectrum.  Their arrays, which are samples of `J`, change no quantity that is
additive in the reactions, the energy in particular, and do not decrease the entropy. -/
theorem C111_decays (c : LibConst) (leptons neutrinos : List S) (ok : Light A neutrinos leptons) :
    ∃ o1 o2, (neutrinoInteractions A c leptons neutrinos).mapM (Decl.integrals A) = .ok o1 ∧
      (leptonInteractions A c leptons neutrinos).mapM (Decl.integrals A) = .ok o2 ∧
      ∀ l, l = (o1.flatten ++ o2.flatten).filter (fun i => ¬ TwoTwo i) →
      ∀ (sp : S → Species) (st : S → PState ι) (GF : ℝ) (p : Params) (P : S → ℝ) (r : Fin l.length → Int4 ι)
        (sched : Fin l.length → List (List ℕ)), 0 < p.aT → 0 < p.a → (∀ n : Fin l.length, Runs A sp st GF l[(n : ℕ)] (r n)) →
      (∀ n, Plain4 (r n)) → (∀ n, Covers4 (r n) (sched n)) →
      (∀ s ∈ neutrinos ++ leptons, (sp s).mass = A.mass s ∧ 0 ≤ P s ∧ Regular (toC (sp s) (st s) p)) →
      (∀ n, (r n).side 1 = 1 → ∀ y ∈ ((r n).sp 0).grid, y ≤ (r n).ub) →
      (∀ n : Fin l.length, (r n).side 1 = -1 → (r n).max3 = P (specieAt l[(n : ℕ)] 3) ∧ CutBound4 (r n) p ∧
        energyOf (((r n).sp 3).mass * p.a) (P (specieAt l[(n : ℕ)] 3)) ≤
          energyOf (((r n).sp 0).mass * p.a) (P (specieAt l[(n : ℕ)] 0)) + ((r n).sp 1).mass * p.a + ((r n).sp 2).mass * p.a) →
      ∃ (f : S → ℝ → ℝ) (J : Fin l.length → ℝ → ℝ),
        (∀ s ∈ neutrinos ++ leptons, ∀ q, 0 ≤ q → occAt (toC (sp s) (st s) p) q = .ok (f s q)) ∧
        (∀ n, Returns4 (r n) p (sched n) (J n)) ∧
        (∀ q : S → ℝ → ℝ, (∀ s, Measurable (q s)) → (∀ s R, ∃ C, ∀ E, |E| ≤ R → |q s E| ≤ C) →
          (∀ (n : Fin l.length) (E : Fin 4 → ℝ), ∑ j, ((r n).side j : ℝ) * E j = 0 →
            ∑ j, ((r n).side j : ℝ) * q (specieAt l[(n : ℕ)] j) (E j) = 0) →
          ∑ n : Fin l.length, ((r n).sp 0).dof * ∫ y in Set.Ioc 0 (P l[(n : ℕ)].particle),
            y ^ 2 * (q l[(n : ℕ)].particle (energyOf (((r n).sp 0).mass * p.a) y) * J n y) = 0) ∧
        (∑ n : Fin l.length, ((r n).sp 0).dof * ∫ y in Set.Ioc 0 (P l[(n : ℕ)].particle),
          y ^ 2 * (energyOf (((r n).sp 0).mass * p.a) y * J n y) = 0) ∧
        ((∀ s ∈ neutrinos ++ leptons, ∀ q, 0 ≤ q → (sp s).fermion = true → f s q ≤ 1) → 0 ≤ p.H → 0 ≤ p.x →
          ∃ C, 0 ≤ C ∧ ∀ ε, 0 < ε → ε ≤ 1 → -(C * (ε * (1 + |Real.log ε|))) ≤
            ∑ n : Fin l.length, ((r n).sp 0).dof * ∫ y in Set.Ioc 0 (P l[(n : ℕ)].particle),
              y ^ 2 * ((Real.log (max (1 - ((r n).sp 0).eta * f l[(n : ℕ)].particle (y / p.aT)) ε) -
                Real.log (max (f l[(n : ℕ)].particle (y / p.aT)) ε)) * J n y)) := by
  classical
  obtain ⟨o1, o2, e1, e2, -⟩ := sm_laws (ι := ι) c leptons neutrinos ok
  refine ⟨o1, o2, e1, e2, ?_⟩
  intro l hl sp st GF p P r sched haT ha hrun hpl hcov hspec hwhole hb
  obtain ⟨f, hfm, hfb, hf⟩ := regular_choice (neutrinos ++ leptons) (fun s => toC (sp s) (st s) p) fun s hs => (hspec s hs).2.2
  obtain ⟨J, hJ, hq, hS⟩ := sm_decays c leptons neutrinos ok o1 o2 e1 e2 l hl sp st GF p P r sched haT ha hrun hpl hcov
    (fun s hs => ⟨(hspec s hs).1, (hspec s hs).2.1⟩) hwhole hb f hfm hfb hf
  exact ⟨f, J, fun s hs q h => (hf s hs q h).1, hJ, hq,
    hq (fun _ E => E) (fun _ => measurable_id) (fun _ R => ⟨R, fun _ h => h⟩) (fun _ _ h => h), hS⟩

/-- **C111.** All integrals generated from `neutrino_interactions` and `lepton_interactions`, evaluated by `integrate`: scatterings,
decays and inverse decays.  If no scattering is inside the grids of one side of its reaction only, their arrays change no quantity that
is additive in the reactions, the energy in particular, and do not decrease the entropy. -/
theorem C111_totals (c : LibConst) (leptons neutrinos : List S) (ok : Light A neutrinos leptons) :
    ∃ o1 o2, (neutrinoInteractions A c leptons neutrinos).mapM (Decl.integrals A) = .ok o1 ∧
      (leptonInteractions A c leptons neutrinos).mapM (Decl.integrals A) = .ok o2 ∧
      ∀ l, l = o1.flatten ++ o2.flatten →
      ∀ (sp : S → Species) (st : S → PState ι) (GF : ℝ) (p : Params) (P : S → ℝ) (r : Fin l.length → Int4 ι)
        (sched : Fin l.length → List (List ℕ)), 0 < p.aT → 0 < p.a → (∀ n : Fin l.length, Runs A sp st GF l[(n : ℕ)] (r n)) →
      (∀ n, Plain4 (r n)) → (∀ n, Covers4 (r n) (sched n)) →
      (∀ s ∈ neutrinos ++ leptons, (sp s).mass = A.mass s ∧ 0 ≤ P s ∧ Regular (toC (sp s) (st s) p)) →
      (∀ n : Fin l.length, TwoTwo l[(n : ℕ)] → (r n).max1 = P (specieAt l[(n : ℕ)] 1) ∧ (∀ y ∈ ((r n).sp 0).grid, y ≤ (r n).ub) ∧
        3 * (((r n).sp 2).mass + ((r n).sp 3).mass - ((r n).sp 0).mass) * p.a ≤ P (specieAt l[(n : ℕ)] 1)) →
      (∀ n : Fin l.length, ¬ TwoTwo l[(n : ℕ)] → (r n).side 1 = 1 → ∀ y ∈ ((r n).sp 0).grid, y ≤ (r n).ub) →
      (∀ n : Fin l.length, ¬ TwoTwo l[(n : ℕ)] → (r n).side 1 = -1 → (r n).max3 = P (specieAt l[(n : ℕ)] 3) ∧ CutBound4 (r n) p ∧
        energyOf (((r n).sp 3).mass * p.a) (P (specieAt l[(n : ℕ)] 3)) ≤
          energyOf (((r n).sp 0).mass * p.a) (P (specieAt l[(n : ℕ)] 0)) + ((r n).sp 1).mass * p.a + ((r n).sp 2).mass * p.a) →
      ∃ (f : S → ℝ → ℝ) (J : Fin l.length → ℝ → ℝ),
        (∀ s ∈ neutrinos ++ leptons, ∀ q, 0 ≤ q → occAt (toC (sp s) (st s) p) q = .ok (f s q)) ∧
        (∀ n, Returns4 (r n) p (sched n) (J n)) ∧
        ((∀ n : Fin l.length, TwoTwo l[(n : ℕ)] → Confined ((r n).reaction p) (fun j => f (specieAt l[(n : ℕ)] j))
            fun j => P (specieAt l[(n : ℕ)] j) / p.aT) →
          (∀ q : S → ℝ → ℝ, (∀ s, Measurable (q s)) → (∀ s R, ∃ C, ∀ E, |E| ≤ R → |q s E| ≤ C) →
            (∀ (n : Fin l.length) (E : Fin 4 → ℝ), ∑ j, ((r n).side j : ℝ) * E j = 0 →
              ∑ j, ((r n).side j : ℝ) * q (specieAt l[(n : ℕ)] j) (E j) = 0) →
            ∑ n : Fin l.length, ((r n).sp 0).dof * ∫ y in Set.Ioc 0 (P l[(n : ℕ)].particle),
              y ^ 2 * (q l[(n : ℕ)].particle (energyOf (((r n).sp 0).mass * p.a) y) * J n y) = 0) ∧
          (∑ n : Fin l.length, ((r n).sp 0).dof * ∫ y in Set.Ioc 0 (P l[(n : ℕ)].particle),
            y ^ 2 * (energyOf (((r n).sp 0).mass * p.a) y * J n y) = 0) ∧
          ((∀ s ∈ neutrinos ++ leptons, ∀ q, 0 ≤ q → (sp s).fermion = true → f s q ≤ 1) → 0 ≤ p.H → 0 ≤ p.x →
            ∃ C, 0 ≤ C ∧ ∀ ε, 0 < ε → ε ≤ 1 → -(C * (ε * (1 + |Real.log ε|))) ≤
              ∑ n : Fin l.length, ((r n).sp 0).dof * ∫ y in Set.Ioc 0 (P l[(n : ℕ)].particle),
                y ^ 2 * ((Real.log (max (1 - ((r n).sp 0).eta * f l[(n : ℕ)].particle (y / p.aT)) ε) -
                  Real.log (max (f l[(n : ℕ)].particle (y / p.aT)) ε)) * J n y))) := by
  classical
  obtain ⟨o1, o2, e1, e2, hscat⟩ := sm_laws (ι := ι) c leptons neutrinos ok
  refine ⟨o1, o2, e1, e2, ?_⟩
  intro l hl sp st GF p P r sched haT ha hrun hpl hcov hspec hscatb hwhole hb
  have hsound : ∀ i ∈ l, Sound A (· ∈ neutrinos ++ leptons) i := by
    intro i hi
    rw [hl] at hi
    rcases List.mem_append.mp hi with hi | hi
    · exact (library_sound c ok.inj leptons neutrinos).1 o1 e1 i hi
    · exact (library_sound c ok.inj leptons neutrinos).2 o2 e2 i hi
  obtain ⟨l1, hl1⟩ : ∃ l1, l1 = l.filter (fun i => TwoTwo i) := ⟨_, rfl⟩
  obtain ⟨l2, hl2⟩ : ∃ l2, l2 = l.filter (fun i => ¬ TwoTwo i) := ⟨_, rfl⟩
  obtain ⟨e, he1, he2⟩ := split_index l l1 l2 (by
    have := List.filter_append_perm (fun i => decide (TwoTwo i)) l
    rw [hl1, hl2]
    simpa using this)
  have htwo : ∀ n : Fin l1.length, TwoTwo l[(e (.inl n) : ℕ)] := by
    intro n
    rw [he1]
    have : ∀ i ∈ l1, TwoTwo i := fun i hi => by rw [hl1] at hi; simpa using (List.mem_filter.mp hi).2
    exact this _ (List.getElem_mem n.2)
  have hdec : ∀ n : Fin l2.length, ¬ TwoTwo l[(e (.inr n) : ℕ)] := by
    intro n
    rw [he2]
    have : ∀ i ∈ l2, ¬ TwoTwo i := fun i hi => by rw [hl2] at hi; simpa using (List.mem_filter.mp hi).2
    exact this _ (List.getElem_mem n.2)
  have q1 : l1 = (o1.flatten ++ o2.flatten).filter (fun i => TwoTwo i) := by rw [hl1, hl]
  have q2 : l2 = (o1.flatten ++ o2.flatten).filter (fun i => ¬ TwoTwo i) := by rw [hl2, hl]
  have hspecie1 : ∀ (n : Fin l1.length) j, specieAt l1[(n : ℕ)] j ∈ neutrinos ++ leptons := by
    intro n j
    rw [← he1]
    exact (hsound _ (List.getElem_mem _)).mem j
  clear hl1 hl2
  have hrun1 : ∀ n : Fin l1.length, Runs A sp st GF l1[(n : ℕ)] (r (e (.inl n))) := fun n => by rw [← he1]; exact hrun _
  have hrun2 : ∀ n : Fin l2.length, Runs A sp st GF l2[(n : ℕ)] (r (e (.inr n))) := fun n => by rw [← he2]; exact hrun _
  obtain ⟨f1, J1, hf1, hJ1, hfm1, hfb1, hfn1, hlaw1⟩ := hscat l1 q1 sp st GF p P (fun n => r (e (.inl n))) (fun n => sched (e (.inl n)))
    haT ha hrun1 (fun n => hpl _) (fun n => hcov _)
    (fun s hs => ⟨by rw [(hspec s hs).1]; exact ok.mass s, (hspec s hs).2.1, (hspec s hs).2.2⟩)
    (fun n => by have := (hscatb _ (htwo n)).1; rw [he1] at this; exact this)
    (fun n => (hscatb _ (htwo n)).2.1)
    (fun n => by have := (hscatb _ (htwo n)).2.2; rw [he1] at this; exact this)
  obtain ⟨f0, hfm0, hfb0, hf0⟩ := regular_choice (neutrinos ++ leptons) (fun s => toC (sp s) (st s) p) fun s hs => (hspec s hs).2.2
  set f : S → ℝ → ℝ := fun s => if ∃ (n : Fin l1.length) (j : Fin 4), s = specieAt l1[(n : ℕ)] j then f1 s else f0 s with hfdef
  have hff : ∀ (n : Fin l1.length) j, f (specieAt l1[(n : ℕ)] j) = f1 (specieAt l1[(n : ℕ)] j) := fun n j => if_pos ⟨n, j, rfl⟩
  have hpart : ∀ n : Fin l1.length, f l1[(n : ℕ)].particle = f1 l1[(n : ℕ)].particle := by
    intro n
    have : specieAt l1[(n : ℕ)] 0 = l1[(n : ℕ)].particle := by
      rw [← he1]; exact (hsound _ (List.getElem_mem _)).particle
    rw [← this]
    exact hff n 0
  have hfm : ∀ s, Measurable (f s) := by
    intro s
    rw [hfdef]
    dsimp only
    split_ifs
    exacts [hfm1 s, hfm0 s]
  have hfb : ∀ s, ∃ B, ∀ q, 0 ≤ q → |f s q| ≤ B := by
    intro s
    rw [hfdef]
    dsimp only
    split_ifs
    exacts [hfb1 s, hfb0 s]
  have hf : ∀ s ∈ neutrinos ++ leptons, ∀ q, 0 ≤ q → occAt (toC (sp s) (st s) p) q = .ok (f s q) ∧ 0 ≤ f s q := by
    intro s hs q hq
    by_cases h : ∃ (n : Fin l1.length) (j : Fin 4), s = specieAt l1[(n : ℕ)] j
    · obtain ⟨n, j, rfl⟩ := h
      rw [hff]
      refine ⟨?_, hfn1 n j q hq⟩
      have := hf1 n j q hq
      unfold Int4.reaction at this
      rw [((hrun1 n).sp_eq j).1, ((hrun1 n).sp_eq j).2] at this
      exact this
    · have : f s = f0 s := if_neg h
      rw [this]
      exact hf0 s hs q hq
  clear_value f
  obtain ⟨J2, hJ2, hq2, hS2⟩ := sm_decays c leptons neutrinos ok o1 o2 e1 e2 l2 q2 sp st GF p P (fun n => r (e (.inr n)))
    (fun n => sched (e (.inr n))) haT ha hrun2 (fun n => hpl _) (fun n => hcov _)
    (fun s hs => ⟨(hspec s hs).1, (hspec s hs).2.1⟩) (fun n => hwhole _ (hdec n))
    (fun n hn => by have := hb _ (hdec n) hn; rw [he2] at this; exact this) f hfm hfb hf
  have hsum : ∀ G : Fin l.length → ℝ, ∑ n, G n = (∑ n, G (e (.inl n))) + ∑ n, G (e (.inr n)) := by
    intro G
    rw [← e.sum_comp, Fintype.sum_sum_type]
  set J : Fin l.length → ℝ → ℝ := fun n => Sum.elim J1 J2 (e.symm n) with hJdef
  have i1 : ∀ n, J (e (.inl n)) = J1 n := fun n => by rw [hJdef]; simp
  have i2 : ∀ n, J (e (.inr n)) = J2 n := fun n => by rw [hJdef]; simp
  clear_value J
  refine ⟨f, J, fun s hs q h => (hf s hs q h).1, fun n => ?_, fun hconf => ?_⟩
  · obtain ⟨m, rfl⟩ := e.surjective n
    rcases m with m | m
    · rw [i1]; exact hJ1 m
    · rw [i2]; exact hJ2 m
  obtain ⟨hq1, hS1⟩ := hlaw1 fun n => by
    have := hconf _ (htwo n)
    simp only [he1, hff] at this
    exact this
  have hq : ∀ q : S → ℝ → ℝ, (∀ s, Measurable (q s)) → (∀ s R, ∃ C, ∀ E, |E| ≤ R → |q s E| ≤ C) →
      (∀ (n : Fin l.length) (E : Fin 4 → ℝ), ∑ j, ((r n).side j : ℝ) * E j = 0 →
        ∑ j, ((r n).side j : ℝ) * q (specieAt l[(n : ℕ)] j) (E j) = 0) →
      ∑ n : Fin l.length, ((r n).sp 0).dof * ∫ y in Set.Ioc 0 (P l[(n : ℕ)].particle),
        y ^ 2 * (q l[(n : ℕ)].particle (energyOf (((r n).sp 0).mass * p.a) y) * J n y) = 0 := by
    intro q h1 h2 h3
    rw [hsum]
    simp only [he1, he2, i1, i2]
    rw [hq1 q h1 h2 ?_, hq2 q h1 h2 ?_, add_zero]
    · intro n E hE
      have := h3 (e (.inr n)) E hE
      rw [he2] at this
      exact this
    · intro i hi x y z w h
      obtain ⟨m, hm, rfl⟩ := List.getElem_of_mem hi
      have := h3 (e (.inl ⟨m, hm⟩)) ![x, y, z, w]
      have hs := (hrun1 ⟨m, hm⟩).side_eq (by rw [← he1]; exact htwo _)
      rw [he1] at this
      simp only [Fin.sum_univ_four, hs] at this
      simp [evSide] at this
      have g := this (by linarith)
      linarith
  refine ⟨hq, hq (fun _ E => E) (fun _ => measurable_id) (fun _ R => ⟨R, fun _ h => h⟩) (fun _ _ h => h), fun hp hH hx => ?_⟩
  obtain ⟨C1, hC1, h1⟩ := hS1 (by
    intro n j q h0 h
    rw [((hrun1 n).sp_eq j).1] at h
    have := hp _ (hspecie1 n j) q h0 h
    rw [hff] at this
    exact this) hH hx
  obtain ⟨C2, hC2, h2⟩ := hS2 hp hH hx
  refine ⟨C1 + C2, by positivity, fun ε hε hε1 => ?_⟩
  have a1 := h1 ε hε hε1
  have a2 := h2 ε hε hε1
  rw [hsum]
  simp only [he1, he2, i1, i2, hpart]
  linarith

/-- **C111, classification.** Every generated integral which is not a scattering is one of the four of a decay. -/
theorem C111_decay_member (c : LibConst) (leptons neutrinos : List S) (ok : Light A neutrinos leptons) (o1 o2 : List (List (Integral4 S)))
    (e1 : (neutrinoInteractions A c leptons neutrinos).mapM (Decl.integrals A) = .ok o1)
    (e2 : (leptonInteractions A c leptons neutrinos).mapM (Decl.integrals A) = .ok o2)
    (i : Integral4 S) (hi : i ∈ o1.flatten ++ o2.flatten) (ht : ¬ TwoTwo i) :
    ∃ D θ σ k, DecayFamily A (4 * (32 * c.GF ^ 2)) D θ σ ∧ (∀ j, θ j ∈ neutrinos ++ leptons) ∧ i = D k := by
  obtain ⟨Ds, hperm, hfam⟩ := lepton_decays c leptons neutrinos ok o2 e2
  rcases List.mem_append.mp hi with h | h
  · exact absurd (C107_only_scatterings c leptons neutrinos ok o1 e1 i h) ht
  · have : i ∈ Ds.flatMap List.ofFn := hperm.subset (List.mem_filter.mpr ⟨h, by simpa using ht⟩)
    obtain ⟨D, hD, hi⟩ := List.mem_flatMap.mp this
    obtain ⟨k, rfl⟩ := List.mem_ofFn.mp hi
    obtain ⟨θ, σ, F, hθ⟩ := hfam D hD
    exact ⟨D, θ, σ, k, F, hθ, rfl⟩

end

section Example
private noncomputable def decEnd : Fin 5 → ℝ := ![0, 1001, 1001, 700, 1000]
private noncomputable def decSp (s : Fin 5) : Species :=
  { name := "X", mass := termsAttr.mass s, dof := 2, fermion := true, thermalDyn := false, Q := 0, grid := [0, 1, 300],
    fastDecay := false, lifetime := 0 }
private noncomputable def decSt (s : Fin 5) : PState ℕ :=
  { T := 1, aT := 1, Tdec := 2, dist := ![[0, 0, 0], [1/3, 0, 0], [1/5, 0, 0], [1/2, 0, 0], [1/4, 0, 0]] s, coll := [],
    integrals := [], tDec := 0, decayed := false, density := 0, histDist := [], histColl := [], histT := [],
    histDensity := [] }
private noncomputable def decP : Params :=
  { log := true, m := 1, T := 1, a := 1, aIni := 1, x := 1, y := none, aT := 1, t := 1, H := 1, rho := none,
    S := none, Neff := 3, dy := 1, dx := 1, h := 1 }
private noncomputable def decK (s : Fin 5) : KSpecie :=
  { confMass := termsAttr.mass s * 1, massless := false, maxMom := decEnd s, grid := [] }
private noncomputable def decRun (i : Integral4 (Fin 5)) : Int4 ℕ :=
  { sp := fun j => decSp (specieAt i j), st := fun j => decSt (specieAt i j),
    side := fun j => ((i.reaction[(j : ℕ)]?).map (·.side)).getD 0,
    Ms := i.Ms.map M4.toC, GF := 1, majorana := false, mult := multOf termsAttr i, kind := .full, neglect := false,
    min1 := 0, max1 := decEnd (specieAt i 1), min2 := 0, max2 := 1000, max3 := decEnd (specieAt i 3),
    ub := bounds4Creation (decK (specieAt i 0)) (decK (specieAt i 1)) (decK (specieAt i 2)) (decK (specieAt i 3)) 1001,
    creationFast := false, br := none, num := 0, total := fun _ => 0 }

/-- Electrons, muons and two neutrinos with spectra far from equilibrium, which end at momentum 1: scatterings and decays of muons
together keep the energy and do not decrease the entropy. -/
example (c : LibConst) : ∃ o1 o2, (neutrinoInteractions termsAttr c [4, 3] [1, 2]).mapM (Decl.integrals termsAttr) = .ok o1 ∧
    (leptonInteractions termsAttr c [4, 3] [1, 2]).mapM (Decl.integrals termsAttr) = .ok o2 ∧
    ∀ l, l = o1.flatten ++ o2.flatten → ∃ J : Fin l.length → ℝ → ℝ,
      (∀ n : Fin l.length, Returns4 (decRun l[(n : ℕ)]) decP (oneThread4 (decRun l[(n : ℕ)])) (J n)) ∧
      (∑ n : Fin l.length, (2 : ℝ) * ∫ y in Set.Ioc 0 (decEnd l[(n : ℕ)].particle),
        y ^ 2 * (energyOf (((decRun l[(n : ℕ)]).sp 0).mass * 1) y * J n y) = 0) ∧
      ∃ (f : Fin 5 → ℝ → ℝ) (C : ℝ), 0 ≤ C ∧ ∀ ε, 0 < ε → ε ≤ 1 → -(C * (ε * (1 + |Real.log ε|))) ≤
        ∑ n : Fin l.length, (2 : ℝ) * ∫ y in Set.Ioc 0 (decEnd l[(n : ℕ)].particle),
          y ^ 2 * ((Real.log (max (1 - ((decRun l[(n : ℕ)]).sp 0).eta * f l[(n : ℕ)].particle (y / 1)) ε) -
            Real.log (max (f l[(n : ℕ)].particle (y / 1)) ε)) * J n y) := by
  obtain ⟨o1, o2, e1, e2, h⟩ := C111_totals (ι := ℕ) c [4, 3] [1, 2] termsAttr_light
  refine ⟨o1, o2, e1, e2, fun l hl => ?_⟩
  have hsound : ∀ i ∈ l, Sound termsAttr (· ∈ [1, 2] ++ [4, 3]) i := by
    intro i hi
    rw [hl] at hi
    rcases List.mem_append.mp hi with hi | hi
    · exact (library_sound c termsAttr_light.inj [4, 3] [1, 2]).1 o1 e1 i hi
    · exact (library_sound c termsAttr_light.inj [4, 3] [1, 2]).2 o2 e2 i hi
  have hfam : ∀ i ∈ l, ¬ TwoTwo i → ∃ D θ σ k, DecayFamily termsAttr (4 * (32 * c.GF ^ 2)) D θ σ ∧
      (∀ j, θ j ∈ ([1, 2] ++ [4, 3] : List (Fin 5))) ∧ i = D k := by
    intro i hi ht
    rw [hl] at hi
    exact C111_decay_member c [4, 3] [1, 2] termsAttr_light o1 o2 e1 e2 i hi ht
  have hm : ∀ n : Fin l.length, l[(n : ℕ)] ∈ l := fun n => List.getElem_mem n.2
  have cases4 : ∀ s : Fin 5, s ∈ ([1, 2] ++ [4, 3] : List (Fin 5)) →
      (decSp s).mass = 0 ∧ decEnd s = 1001 ∨ (decSp s).mass = 1 / 2 ∧ decEnd s = 1000 ∨ (decSp s).mass = 105 ∧ decEnd s = 700 := by
    intro s hs
    simp only [List.cons_append, List.nil_append, List.mem_cons, List.not_mem_nil, or_false] at hs
    rcases hs with rfl | rfl | rfl | rfl
    exacts [Or.inl ⟨rfl, rfl⟩, Or.inl ⟨rfl, rfl⟩, Or.inr (Or.inl ⟨rfl, rfl⟩), Or.inr (Or.inr ⟨rfl, rfl⟩)]
  have mass : ∀ s : Fin 5, s ∈ ([1, 2] ++ [4, 3] : List (Fin 5)) →
      0 ≤ (decSp s).mass ∧ (decSp s).mass ≤ 105 ∧ 700 ≤ decEnd s := by
    intro s hs
    rcases cases4 s hs with ⟨a, b⟩ | ⟨a, b⟩ | ⟨a, b⟩ <;> rw [a, b] <;> norm_num
  have hlen : ∀ s, (decSt s).dist.length = 3 := by intro s; fin_cases s <;> rfl
  have zero : ∀ s i, 1 ≤ i → ∀ h : i < (decSt s).dist.length, (decSt s).dist[i] = 0 := by
    intro s i hi h
    have h' : i < 3 := by rw [← hlen s]; exact h
    have : i = 1 ∨ i = 2 := by omega
    fin_cases s <;> rcases this with rfl | rfl <;> rfl
  have reg : ∀ s, Regular (toC (decSp s) (decSt s) decP) := by
    intro s
    refine regular_toC _ _ _ (by norm_num [decP]) [1, 300] ?_ rfl (by norm_num [decSp, StrictInc]) (hlen s)
      (by norm_num [decSt]) ?_
    · simp [inEq, decSp]
    · fin_cases s <;> norm_num [decSt, decSp]
  have hmul : ∀ n : Fin l.length, multOf termsAttr l[(n : ℕ)] = 1 := by
    intro n
    by_cases ht : TwoTwo l[(n : ℕ)]
    · exact (hsound _ (hm n)).mult ht termsAttr_light.name
    · obtain ⟨D, θ, σ, k, F, hθ, e⟩ := hfam _ (hm n) ht
      rw [e]
      exact F.mult (fun i => termsAttr_light.name _ (hθ i)) k
  have hub : ∀ i, ∀ y ∈ ((decRun i).sp 0).grid, y ≤ (decRun i).ub := by
    intro i y hy
    refine le_trans ?_ (le_max_right _ _)
    have : ∀ y ∈ [(0 : ℝ), 1, 300], y ≤ 1001 := by norm_num
    exact this y hy
  obtain ⟨f, J, hf, hJ, htot⟩ := h l hl decSp decSt 1 decP decEnd (fun n => decRun l[(n : ℕ)])
    (fun n => oneThread4 (decRun l[(n : ℕ)])) (by norm_num [decP]) (by norm_num [decP])
    (by
      intro n
      have h1 := hsound _ (hm n)
      refine ⟨fun j => ?_, rfl, rfl, rfl, rfl⟩
      have hj : (j : ℕ) < l[(n : ℕ)].reaction.length := by rw [h1.four]; exact j.2
      have hx := List.getElem?_eq_getElem hj
      have hs : specieAt l[(n : ℕ)] j = (l[(n : ℕ)].reaction[(j : ℕ)]).specie := by unfold specieAt; rw [hx]; rfl
      refine ⟨_, hx, congrArg decSp hs, congrArg decSt hs, ?_⟩
      change ((l[(n : ℕ)].reaction[(j : ℕ)]?).map (·.side)).getD 0 = _
      rw [hx]; rfl)
    (fun n =>
      { kind := Or.inl rfl, slow := rfl, active := rfl, min1 := rfl, grid := List.cons_ne_nil _ _
        nonneg := by norm_num [decRun, decSp]
        inc := by norm_num [decRun, decSp, StrictInc]
        stored := hlen _
        dof := by norm_num [decRun, decSp, dofFactor]
        mult := by
          change multOf termsAttr l[(n : ℕ)] ≠ 0
          rw [hmul n]; exact one_ne_zero })
    (fun n => covers4_oneThread _) (fun s hs => ⟨rfl, by linarith [(mass s hs).2.2], reg s⟩)
    (by
      intro n ht
      refine ⟨rfl, hub _, ?_⟩
      change 3 * ((decSp (specieAt l[(n : ℕ)] 2)).mass + (decSp (specieAt l[(n : ℕ)] 3)).mass -
        (decSp (specieAt l[(n : ℕ)] 0)).mass) * 1 ≤ decEnd (specieAt l[(n : ℕ)] 1)
      have a := fun j => mass _ ((hsound _ (hm n)).mem j)
      linarith [(a 2).2.1, (a 3).2.1, (a 0).1, (a 1).2.2])
    (fun n _ _ => hub _)
    (by
      intro n ht hs
      obtain ⟨D, θ, σ, k, F, hθ, e⟩ := hfam _ (hm n) ht
      refine ⟨rfl, ⟨decK _, decK _, decK _, decK _, 1001, rfl, rfl, rfl, rfl, rfl, rfl⟩, ?_⟩
      change energyOf ((decSp (specieAt l[(n : ℕ)] 3)).mass * 1) (decEnd (specieAt l[(n : ℕ)] 3)) ≤
        energyOf ((decSp (specieAt l[(n : ℕ)] 0)).mass * 1) (decEnd (specieAt l[(n : ℕ)] 0)) +
          (decSp (specieAt l[(n : ℕ)] 1)).mass * 1 + (decSp (specieAt l[(n : ℕ)] 2)).mass * 1
      rw [e] at hs ⊢
      have hk : k ≠ 0 := by
        rintro rfl
        obtain ⟨x, h1, -, h3⟩ := F.reads 0 1
        have : (((D 0).reaction[((1 : Fin 4) : ℕ)]?).map (·.side)).getD 0 = -1 := hs
        rw [h1] at this
        have h4 : x.side = -1 := this
        rw [h3] at h4
        exact absurd h4 (by decide)
      rw [F.specieAt_eq, F.specieAt_eq, F.specieAt_eq, F.specieAt_eq, F.parent k hk, F.own]
      have open' : (decSp (θ 1)).mass + (decSp (θ 2)).mass + (decSp (θ 3)).mass < (decSp (θ 0)).mass := F.isOpen
      have b := fun j => cases4 _ (hθ j)
      have m0 := fun j => (mass _ (hθ j)).1
      have hlt : (decSp (θ k)).mass < (decSp (θ 0)).mass := by
        have : k = 1 ∨ k = 2 ∨ k = 3 := by omega
        rcases this with rfl | rfl | rfl <;> linarith [m0 1, m0 2, m0 3]
      have key : energyOf ((decSp (θ 0)).mass * 1) (decEnd (θ 0)) ≤ energyOf ((decSp (θ k)).mass * 1) (decEnd (θ k)) := by
        unfold energyOf
        apply Real.sqrt_le_sqrt
        rcases b 0 with ⟨a, b'⟩ | ⟨a, b'⟩ | ⟨a, b'⟩ <;> rcases b k with ⟨a1, b1⟩ | ⟨a1, b1⟩ | ⟨a1, b1⟩ <;>
          rw [a, a1] at hlt <;> first | (norm_num at hlt; done) | (rw [a, a1, b', b1]; norm_num)
      linarith [m0 (σ k 1), m0 (σ k 2)])
  have ends : ∀ s ∈ ([1, 2] ++ [4, 3] : List (Fin 5)), ∀ q, 1 < q → f s q = 0 := by
    intro s hs q hq
    have h1 := hf s hs q (by linarith)
    have h2 := C107_spectrum_ends (toC (decSp s) (decSt s) decP)
      (by change inEq (decSp _) (decSt _) = false; simp [inEq, decSp]) (List.cons_ne_nil _ _)
      (by
        change [(0 : ℝ) / 1, 1 / 1, 300 / 1].Pairwise (· < ·)
        norm_num)
      (hlen _) 1 (by change 1 < 3; norm_num)
      (fun i hi h => zero s i hi h)
      q (by change (1 : ℝ) / 1 ≤ q; linarith)
    exact Except.ok.inj (h1.symm.trans h2)
  obtain ⟨-, h2, h3⟩ := htot (by
    intro n ht
    have a := fun j => mass _ ((hsound _ (hm n)).mem j)
    have hmass : ∀ j, ((decRun l[(n : ℕ)]).reaction decP j).specie.m = (decSp (specieAt l[(n : ℕ)] j)).mass := by
      intro j
      change (decSp (specieAt l[(n : ℕ)] j)).mass * 1 / 1 = _
      rw [mul_one, div_one]
    have e1 : ∀ m : ℝ, 0 ≤ m → m ≤ 105 → energyOf m 1 ≤ 106 := by
      intro m h0 h1
      unfold energyOf
      rw [Real.sqrt_le_left (by norm_num)]; nlinarith
    have e2 : ∀ m Q : ℝ, Q ≤ energyOf m Q := by
      intro m Q
      unfold energyOf; apply Real.le_sqrt_of_sq_le; nlinarith [sq_nonneg m]
    have hs : ∀ j, ((decRun l[(n : ℕ)]).reaction decP j).side = evSide j := by
      intro j
      have h5 : (l[(n : ℕ)].reaction.map (·.side))[(j : ℕ)]? = (l[(n : ℕ)].reaction[(j : ℕ)]?).map (·.side) := List.getElem?_map
      have h6 : (decRun l[(n : ℕ)]).side j = ((l[(n : ℕ)].reaction.map (·.side))[(j : ℕ)]?).getD 0 := by rw [h5]; rfl
      change (decRun l[(n : ℕ)]).side j = _
      rw [h6, ht]
      fin_cases j <;> rfl
    have d1 : ∀ x : ℝ, x / decP.aT = x := fun x => div_one x
    refine C104_confined ⟨hs 0, hs 1, hs 2, hs 3⟩ (fun j => by rw [hmass]; exact (a j).1) (fun _ => 1) (fun _ => by norm_num)
      (fun j => ends _ ((hsound _ (hm n)).mem j)) ?_ ?_ <;>
    intro j
    · rw [hmass, hmass, hmass, hmass, d1]
      linarith [e1 _ (a 0).1 (a 0).2.1, e1 _ (a 1).1 (a 1).2.1, (a (mate j)).1, (a j).2.2,
        e2 (decSp (specieAt l[(n : ℕ)] j)).mass (decEnd (specieAt l[(n : ℕ)] j))]
    · rw [hmass, hmass, hmass, hmass, d1]
      linarith [e1 _ (a 2).1 (a 2).2.1, e1 _ (a 3).1 (a 3).2.1, (a (mate j)).1, (a j).2.2,
        e2 (decSp (specieAt l[(n : ℕ)] j)).mass (decEnd (specieAt l[(n : ℕ)] j))])
  refine ⟨J, hJ, h2, f, ?_⟩
  refine h3 ?_ (by norm_num [decP]) (by norm_num [decP])
  intro s hs q hq _
  refine C109_pauli _ q _ ?_ ?_ ?_ ?_ (hlen s) ?_ ?_ (hf s hs q hq)
  · change (decSp s).eta = 1
    simp [Species.eta, decSp]
  · change (0 : ℝ) < 1 / 1
    norm_num
  · exact List.cons_ne_nil _ _
  · change [(0 : ℝ) / 1, 1 / 1, 300 / 1].Pairwise (· < ·)
    norm_num
  · change ∀ x ∈ [(0 : ℝ) / 1, 1 / 1, 300 / 1], 0 ≤ x
    norm_num
  · change ∀ d ∈ (decSt s).dist, 0 ≤ d ∧ d ≤ 1
    fin_cases s <;> norm_num [decSt]
end Example

end PyBBN
