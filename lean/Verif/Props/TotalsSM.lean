import Verif.Lemmas.CrossKern
import Verif.Lemmas.EventsLaw
import Verif.Props.BalanceScatStep
import Verif.Props.TermsSM
/-!
# C107: all scatterings of the Standard Model together

The collision integrals of a run are generated from declarations: each declaration is crossed, restricted to the terms of
the integrated particle, relabelled and merged, and every integral is evaluated by itself.  Specification: the arrays of
all scatterings `a + b → c + d` taken together, weighted with the degrees of freedom, do not change the energy, the number
of particles or anything else that is additive in every reaction, whatever the spectra are, provided that no event is inside
the grids of one side of its reaction only.
-/
namespace PyBBN
open MeasureTheory

variable {ι : Type*}

/-! ## A family of scatterings -/

theorem viewOf_one (r : Fin 4 → Reactant) : viewOf r 1 1 = r := by
  funext i
  unfold viewOf
  rw [one_mul]; rfl

theorem viewMs_one (Ms : List CM) : viewMs Ms 1 = Ms := by
  unfold viewMs
  conv_rhs => rw [← List.map_id Ms]
  rfl

section
variable {S : Type*}

/-- The arrays of a family of scatterings, and their totals as integrals over events. -/
theorem family_arrays {N : Type*} [Fintype N] (τ : N → Fin 4 → S) (c : N → Int4 ι) (sp : S → Species) (st : S → PState ι)
    (p : Params) (sched : N → List (List ℕ)) (P : S → ℝ) (GF : ℝ) (haT : 0 < p.aT) (ha : 0 < p.a)
    (hsp : ∀ n j, (c n).sp j = sp (τ n j)) (hst : ∀ n j, (c n).st j = st (τ n j)) (hside : ∀ n j, (c n).side j = evSide j)
    (hGF : ∀ n, (c n).GF = GF) (hMs : ∀ n, (c n).Ms ≠ []) (hK : ∀ n, ∀ M ∈ (c n).Ms, M.K = 0)
    (ho : ∀ n, ∀ M ∈ (c n).Ms, M.order.Bijective)
    (hpl : ∀ n, Plain4 (c n))
    (hm : ∀ n j, 0 ≤ (sp (τ n j)).mass) (hP : ∀ n j, 0 ≤ P (τ n j)) (hP' : ∀ n, (c n).max1 = P (τ n 1))
    (hwhole : ∀ n, ∀ y ∈ ((c n).sp 0).grid, y ≤ (c n).ub)
    (hthr : ∀ n, 3 * ((sp (τ n 2)).mass + (sp (τ n 3)).mass - (sp (τ n 0)).mass) * p.a ≤ P (τ n 1))
    (hcov : ∀ n, Covers4 (c n) (sched n)) (hreg : ∀ n j, Regular (toC (sp (τ n j)) (st (τ n j)) p)) :
    ∃ (f : S → ℝ → ℝ) (J : N → ℝ → ℝ),
      (∀ n j q, 0 ≤ q → occAt (toC (sp (τ n j)) (st (τ n j)) p) q = .ok (f (τ n j) q)) ∧
      (∀ n, Returns4 (c n) p (sched n) (J n)) ∧
      (∀ n, (c n).reaction p = evR (fun s => toC (sp s) (st s) p) (τ n)) ∧
      (∀ n, Scatter4 (evR (fun s => toC (sp s) (st s) p) (τ n)) ((c n).Ms.map (toCM GF)) (fun j => f (τ n j))) ∧
      (∀ s, Measurable (f s)) ∧ (∀ s, ∃ B, ∀ q, 0 ≤ q → |f s q| ≤ B) ∧
      ∀ q : S → ℝ → ℝ, (∀ s, Measurable (q s)) → (∀ s R, ∃ C, ∀ E, |E| ≤ R → |q s E| ≤ C) →
        ∑ n, (c n).weight * ∫ y in Set.Ioc 0 (P (τ n 0)),
          y ^ 2 * (q (τ n 0) (energyOf ((sp (τ n 0)).mass * p.a) y) * J n y) =
        p.aT ^ 3 * common4 GF p * ∑ n, ∫ a, q (τ n 0) (p.aT * a) * ∫ b, ∫ c',
          rateBoxed (evR (fun s => toC (sp s) (st s) p) (τ n)) ((c n).Ms.map (toCM GF)) (fun j => f (τ n j))
            (fun j => P (τ n j) / p.aT) (-1) (place2 1 a b c') := by
  classical
  let cp : S → CParticle := fun s => toC (sp s) (st s) p
  have hex : ∀ s, ∃ (f : ℝ → ℝ) (B : ℝ), Measurable f ∧ (∀ q, 0 ≤ q → |f q| ≤ B) ∧ (Regular (cp s) →
      Measurable f ∧ ∀ q, 0 ≤ q → occAt (cp s) q = .ok (f q) ∧ 0 ≤ f q ∧ f q ≤ B) := by
    intro s
    by_cases h : Regular (cp s)
    · obtain ⟨f, B, hf⟩ := h
      exact ⟨f, B, hf.1, fun q hq => by rw [abs_of_nonneg (hf.2 q hq).2.1]; exact (hf.2 q hq).2.2, fun _ => hf⟩
    · exact ⟨0, 0, measurable_const, fun q _ => by simp, fun h' => absurd h' h⟩
  choose f B hfm hfb hf using hex
  have hr : ∀ n, (c n).reaction p = evR cp (τ n) := by
    intro n
    funext j
    change (⟨toC ((c n).sp j) ((c n).st j) p, (c n).side j⟩ : Reactant) = ⟨toC _ _ p, evSide j⟩
    rw [hsp, hst, hside]
  let Ms : N → List CM := fun n => (c n).Ms.map (toCM GF)
  have d : ∀ n, Scatter4 (evR cp (τ n)) (Ms n) (fun j => f (τ n j)) := fun n =>
    { scat := evR_sides _ _
      masses := fun j => by
        change 0 ≤ (sp (τ n j)).mass * p.a / p.aT
        have := hm n j
        positivity
      eta := fun j => by
        change (sp (τ n j)).eta = 1 ∨ (sp (τ n j)).eta = -1
        unfold Species.eta; split_ifs <;> simp
      occ := fun j q hq => ((hf _ (hreg n j)).2 q hq).1
      nonneg := fun j q hq => ((hf _ (hreg n j)).2 q hq).2.1
      meas := fun j => (hf _ (hreg n j)).1
      bdd := ⟨∑ j, |B (τ n j)|, fun j q hq => (((hf _ (hreg n j)).2 q hq).2.2.trans (le_abs_self _)).trans
        (Finset.single_le_sum (f := fun j => |B (τ n j)|) (fun _ _ => abs_nonneg _) (Finset.mem_univ j))⟩
      some := by simpa [Ms] using hMs n
      plain := by
        intro M hM
        obtain ⟨M', h, rfl⟩ := List.mem_map.mp hM
        change M'.K / _ = 0
        rw [hK n M' h, zero_div]
      order := by
        intro M hM
        obtain ⟨M', h, rfl⟩ := List.mem_map.mp hM
        exact ho n M' h }
  let Q : S → ℝ := fun s => P s / p.aT
  have hQ : ∀ n j, 0 ≤ Q (τ n j) := fun n j => div_nonneg (hP n j) haT.le
  have hthr' : ∀ n, 3 * ((cp (τ n 2)).m + (cp (τ n 3)).m - (cp (τ n 0)).m) ≤ Q (τ n 1) := by
    intro n
    change 3 * ((sp (τ n 2)).mass * p.a / p.aT + (sp (τ n 3)).mass * p.a / p.aT - (sp (τ n 0)).mass * p.a / p.aT) ≤ _
    rw [le_div_iff₀ haT]
    calc _ = 3 * ((sp (τ n 2)).mass + (sp (τ n 3)).mass - (sp (τ n 0)).mass) * p.a := by field_simp
      _ ≤ _ := hthr n
  let X : ℤ → N → ℝ → ℝ := fun k n q =>
    valOf (exactQuad4 (evR cp (τ n)) (Ms n) k ((c n).max3 / p.aT) ((c n).min2 / p.aT, (c n).max2 / p.aT) q
      (scatMin1 (loopCtx4 (evR cp (τ n)) ((c n).max3 / p.aT)) q) (Q (τ n 1)))
  let I : N → ℝ → ℝ := fun n q => X 1 n q + f (τ n 0) q * X 2 n q
  set κ := common4 GF p with hκ
  have w : ∀ n, (c n).weight * (κ / dofFactor (c n).majorana ((c n).sp 0).dof * (c n).mult) = κ := by
    intro n
    unfold Int4.weight; have := (hpl n).dof; have := (hpl n).mult; field_simp
  refine ⟨f, fun n y => I n (y / p.aT) * (κ / dofFactor (c n).majorana ((c n).sp 0).dof * (c n).mult),
    fun n j q hq => ((hf _ (hreg n j)).2 q hq).1, ?_, hr, d, hfm, fun s => ⟨B s, hfb s⟩, ?_⟩
  · intro n
    have e : κ = common4 (c n).GF p := by rw [hGF]
    rw [e]
    refine returns4_of (c n) p (sched n) (X 1 n) (X 2 n) (f (τ n 0)) haT (hpl n) (by rw [hsp]; exact hm n 0) (hcov n) ?_ ?_ ?_
    · intro q hq
      rw [hr]
      exact ((hf _ (hreg n 0)).2 q hq).1
    · intro ps _ hv
      rw [hr, hGF, hP']
      have hT : reactionTypeSum [evR cp (τ n) 0, evR cp (τ n) 1, evR cp (τ n) 2, evR cp (τ n) 3] = 0 := by
        simp [reactionTypeSum, evR, evSide]
      exact ⟨arrayScat _ _ _ _ _ _ _ _ hT (hQ n 1) (hthr' n) _ _ hv, arrayScat _ _ _ _ _ _ _ _ hT (hQ n 1) (hthr' n) _ _ hv⟩
    · intro y hy hub
      exact absurd hub (not_lt.mpr (hwhole n y hy))
  · intro q hq hqb
    let q' : S → ℝ → ℝ := fun s E => q s (p.aT * E)
    have hq' : ∀ s, Measurable (q' s) := fun s => (hq s).comp (measurable_const_mul _)
    have hqb' : ∀ s R, ∃ C, ∀ E, |E| ≤ R → |q' s E| ≤ C := by
      intro s R
      obtain ⟨C, hC⟩ := hqb s (p.aT * R)
      refine ⟨C, fun E hE => hC _ ?_⟩
      rw [abs_mul, abs_of_pos haT]
      exact mul_le_mul_of_nonneg_left hE haT.le
    have one : ∀ n, ∫ k in Set.Ioc 0 (Q (τ n 0)), k ^ 2 * q' (τ n 0) (energyOf (cp (τ n 0)).m k) * I n k =
        ∫ a, q' (τ n 0) a * ∫ b, ∫ c,
          rateBoxed (evR cp (τ n)) (Ms n) (fun i => f (τ n i)) (fun i => Q (τ n i)) (-1) (place2 1 a b c) := by
      intro n
      have := (scat_one (d n) (P := fun i => Q (τ n i)) (fun i => hQ n i) 1 rfl (by
        have a := hthr' n
        have b := hQ n 1
        change (cp (τ n 2)).m + (cp (τ n 3)).m - (cp (τ n 0)).m ≤ Q (τ n 1)
        by_cases h : (cp (τ n 2)).m + (cp (τ n 3)).m - (cp (τ n 0)).m ≤ 0
        · linarith
        · linarith) ((c n).max3 / p.aT) ((c n).min2 / p.aT, (c n).max2 / p.aT) (q' (τ n 0)) (hq' _) (hqb' _)).2
      have e1 : (-(evR cp (τ n) ((1 : Equiv.Perm (Fin 4)) 0)).side) = 1 := by simp [evR, evSide]
      rw [e1, viewOf_one, viewMs_one] at this
      rw [show ((1 : ℤ) : ℝ) = 1 by norm_num, one_mul] at this
      exact this
    have each : ∀ n, (c n).weight * ∫ y in Set.Ioc 0 (P (τ n 0)), y ^ 2 *
        (q (τ n 0) (energyOf ((sp (τ n 0)).mass * p.a) y) *
          (I n (y / p.aT) * (κ / dofFactor (c n).majorana ((c n).sp 0).dof * (c n).mult))) =
        p.aT ^ 3 * κ * ∫ k in Set.Ioc 0 (Q (τ n 0)), k ^ 2 * q' (τ n 0) (energyOf (cp (τ n 0)).m k) * I n k := by
      intro n
      have := number_scale_Ioc p.aT κ (P (τ n 0)) haT (hP n 0) fun k => q' (τ n 0) (energyOf (cp (τ n 0)).m k) * I n k
      simp only [← mul_assoc] at this ⊢
      rw [← this, ← integral_const_mul]
      congr 1
      funext y
      rw [energyOf_div _ y p.aT haT]
      change _ = y ^ 2 * q (τ n 0) (p.aT * energyOf ((sp (τ n 0)).mass * p.a / p.aT) (y / p.aT)) * I n (y / p.aT) * κ
      linear_combination y ^ 2 * q (τ n 0) (p.aT * energyOf ((sp (τ n 0)).mass * p.a / p.aT) (y / p.aT)) * I n (y / p.aT) * w n
    simp only [each, one]
    rw [← Finset.mul_sum]

end

/-! ## The library -/

section
variable {S : Type*} [DecidableEq S] {A : LibAttr S}

/-- `c` is what `integrate` reads when it evaluates the generated integral `i`: the particles of its reaction in their
order, its matrix elements, and the multiplier of its reaction. -/
structure Runs (A : LibAttr S) (sp : S → Species) (st : S → PState ι) (GF : ℝ) (i : Integral4 S) (c : Int4 ι) : Prop where
  reads : ∀ j : Fin 4, ∃ x, i.reaction[(j : ℕ)]? = some x ∧ c.sp j = sp x.specie ∧ c.st j = st x.specie ∧ c.side j = x.side
  Ms : c.Ms = i.Ms.map M4.toC
  GF : c.GF = GF
  mult : c.mult = multOf A i
  majorana : c.majorana = A.majorana i.particle

theorem Runs.sp_eq {sp : S → Species} {st : S → PState ι} {GF : ℝ} {i : Integral4 S} {c : Int4 ι} (h : Runs A sp st GF i c)
    (j : Fin 4) : c.sp j = sp (specieAt i j) ∧ c.st j = st (specieAt i j) := by
  obtain ⟨x, h1, h2, h3, -⟩ := h.reads j
  unfold specieAt
  rw [h1]
  exact ⟨h2, h3⟩

theorem Runs.side_eq {sp : S → Species} {st : S → PState ι} {GF : ℝ} {i : Integral4 S} {c : Int4 ι} (h : Runs A sp st GF i c)
    (ht : TwoTwo i) (j : Fin 4) : c.side j = evSide j := by
  obtain ⟨x, h1, -, -, h4⟩ := h.reads j
  have h5 : (i.reaction.map (·.side))[(j : ℕ)]? = some x.side := by rw [List.getElem?_map, h1]; rfl
  rw [ht] at h5
  rw [h4]
  fin_cases j <;> exact (Option.some.inj h5).symm

theorem Sound.particle {P : S → Prop} {i : Integral4 S} (h : Sound A P i) : specieAt i 0 = i.particle := by
  have := h.head
  rw [List.head?_eq_getElem?] at this
  unfold specieAt
  change ((i.reaction[0]?).map (·.specie)).getD i.particle = _
  rw [this]; rfl

theorem Sound.mem {P : S → Prop} {i : Integral4 S} (h : Sound A P i) (j : Fin 4) : P (specieAt i j) := by
  have hj : (j : ℕ) < i.reaction.length := by rw [h.four]; exact j.2
  unfold specieAt
  rw [List.getElem?_eq_getElem hj]
  exact h.species _ (List.getElem_mem hj)

theorem Sound.sides {P : S → Prop} {i : Integral4 S} (h : Sound A P i) : ∀ x ∈ i.reaction, x.side = -1 ∨ x.side = 1 := by
  obtain ⟨hd, t, R, e, hl, hr, -⟩ := h.shape
  intro x hx
  rw [e] at hx
  rcases List.mem_append.mp hx with hx | hx
  · exact Or.inl (hl x hx)
  · exact Or.inr (hr x hx)

theorem Sound.mult {i : Integral4 S} {neutrinos leptons : List S} (h : Sound A (· ∈ neutrinos ++ leptons) i) (ht : TwoTwo i)
    (hn : ∀ s ∈ neutrinos ++ leptons, A.name s ≠ hnlName) : multOf A i = 1 := by
  have hk := twoTwo_key i ht
  unfold sideKey at hk
  have h1 := congrArg Prod.fst hk
  have h2 := congrArg Prod.snd hk
  dsimp only at h1 h2
  refine multOf_light A i i.particle _ _ ⟨rfl, rfl, rfl⟩ h.head h.sides ?_ ?_ ?_
  · rw [h1, h2]; rfl
  · intro x hx
    rw [h1, h2, Multiset.mem_add, Multiset.mem_coe, Multiset.mem_coe] at hx
    simp only [List.mem_cons, List.not_mem_nil, or_false] at hx
    apply hn
    rcases hx with (rfl | rfl) | (rfl | rfl) <;> exact h.mem _
  · rw [h1]; intro h3; exact absurd h3 (by simp)

theorem openClass_of {P : S → Prop} {i : Integral4 S} (h : Sound A P i) :
    OpenClass A (speciesOn (-1) i.reaction : List S) (speciesOn 1 i.reaction : List S) ∧
      (speciesOn (-1) i.reaction : List S) ≠ [] := by
  obtain ⟨hd, t, R, e, hl, hr, hR, -, -, -, h1, h2⟩ := h.shape
  have e1 : speciesOn (-1) i.reaction = (hd :: t).map (·.specie) := by
    unfold speciesOn
    rw [e, List.filter_append, List.filter_eq_self.mpr fun x hx => by simp [hl x hx],
      List.filter_eq_nil_iff.mpr fun x hx => by simp [hr x hx], List.append_nil]
  have e2 : speciesOn 1 i.reaction = R.map (·.specie) := by
    unfold speciesOn
    rw [e, List.filter_append, List.filter_eq_nil_iff.mpr fun x hx => by simp [hl x hx],
      List.filter_eq_self.mpr fun x hx => by simp [hr x hx], List.nil_append]
  have sm : ∀ l : List (Item S), (((l.map (·.specie) : List S) : Multiset S).map A.mass).sum = totalMass A.toAttr l := by
    intro l
    rw [Multiset.map_coe, Multiset.sum_coe, List.map_map]; rfl
  rw [e1, e2]
  refine ⟨⟨?_, ?_, ?_⟩, by simp⟩
  · simpa using hR
  · intro hc
    have ht : t = [] := by simpa using hc
    subst ht
    rw [sm, sm]
    have := h1 rfl
    simpa [totalMass] using this
  · intro hc
    obtain ⟨y, rfl⟩ : ∃ y, R = [y] := List.length_eq_one_iff.mp (by simpa using hc)
    rw [sm, sm]
    have := h2 y rfl
    simpa [totalMass] using this

/-- An integral between pairs of equal species is that of a scattering. -/
theorem pairs_twoTwo (hmass : ∀ s, 0 ≤ A.mass s) {P : S → Prop} {i : Integral4 S} (h : Sound A P i) (a b : S)
    (hab : ((speciesOn (-1) i.reaction : List S) : Multiset S) + (speciesOn 1 i.reaction : List S) = {a, a, b, b}) :
    TwoTwo i := by
  obtain ⟨ho, hne⟩ := openClass_of h
  have hc := congrArg Multiset.card hab
  have e4 : ({a, a, b, b} : Multiset S).card = 4 := rfl
  rw [Multiset.card_add, e4, Multiset.coe_card, Multiset.coe_card] at hc
  have n1 : (speciesOn (-1) i.reaction).length ≠ 0 := fun h => hne (List.length_eq_zero_iff.mp h)
  have n2 : (speciesOn 1 i.reaction).length ≠ 0 := fun h => ho.1 (by rw [List.length_eq_zero_iff.mp h]; rfl)
  have n3 : (speciesOn (-1) i.reaction).length ≠ 3 := fun h3 => no_decay hmass a b _ _ hab ho h3
  have n4 : (speciesOn 1 i.reaction).length ≠ 3 := fun h3 =>
    no_decay hmass a b _ _ (by rw [add_comm]; exact hab) (ho.symm (by simpa using hne)) h3
  by_contra ht
  have l1 : (speciesOn (-1) i.reaction).length = 2 := by omega
  have l2 : (speciesOn 1 i.reaction).length = 2 := by omega
  obtain ⟨s0, s1, k1⟩ := List.length_eq_two.mp l1
  obtain ⟨s2, s3, k2⟩ := List.length_eq_two.mp l2
  exact not_twoTwo_key P i h ht s0 s1 s2 s3 (by unfold sideKey; rw [k1, k2])

theorem mapM_origin {α β ε : Type*} (g : α → Except ε β) : ∀ (l : List α) (o : List β), l.mapM g = .ok o →
    ∀ y ∈ o, ∃ x ∈ l, g x = .ok y := by
  intro l
  induction l with
  | nil =>
    intro o e
    obtain rfl : [] = o := Except.ok.inj e
    simp
  | cons x l ih =>
    intro o e
    rw [List.mapM_cons] at e
    cases h1 : g x with
    | error x => rw [h1] at e; simp [bind, Except.bind] at e
    | ok o1 =>
      cases h2 : l.mapM g with
      | error x => rw [h1, h2] at e; simp [bind, Except.bind] at e
      | ok o2 =>
        rw [h1, h2] at e
        obtain rfl : o1 :: o2 = o := Except.ok.inj e
        intro y hy
        rcases List.mem_cons.mp hy with rfl | hy
        · exact ⟨x, List.mem_cons_self .., h1⟩
        · obtain ⟨z, hz, hzy⟩ := ih o2 h2 y hy
          exact ⟨z, List.mem_cons_of_mem _ hz, hzy⟩

/-- The four particles of every integral generated from `neutrino_interactions` are two of one species and two of another. -/
theorem library_pairs (c : LibConst) (leptons neutrinos : List S) (ok : Light A neutrinos leptons) :
    ∀ out, (neutrinoInteractions A c leptons neutrinos).mapM (Decl.integrals A) = .ok out → ∀ i ∈ out.flatten,
      ∃ a b, ((speciesOn (-1) i.reaction : List S) : Multiset S) + (speciesOn 1 i.reaction : List S) = {a, a, b, b} := by
  intro out e i hi
  obtain ⟨o, ho, hio⟩ := List.mem_flatten.mp hi
  obtain ⟨d, hd, hdo⟩ := mapM_origin _ _ _ e o ho
  unfold neutrinoInteractions at hd
  rcases List.mem_append.mp hd with hd | hd
  · obtain ⟨x, -, rfl⟩ := List.mem_map.mp hd
    obtain ⟨o', e', hall⟩ := integrals_allOf A ok.inj x.1 x.2 x.1 x.2 false false false false
      [weakM c 1 0 ⟨0, 1, 2, 3⟩]
      (fun y hy => by
        rw [List.mem_singleton.mp hy]
        exact weakM_ok _ _ _ (by rw [normOrder_lits.1]; decide))
    obtain rfl : o' = o := Except.ok.inj (e'.symm.trans hdo)
    refine ⟨x.1, x.2, ?_⟩
    rw [hall i hio]
    exact Multiset.coe_eq_coe.mpr ((List.Perm.swap _ _ _).cons _)
  · obtain ⟨l, -, hd⟩ := List.mem_flatMap.mp hd
    obtain ⟨n, -, rfl⟩ := List.mem_map.mp hd
    obtain ⟨o', e', hall⟩ := integrals_allOf A ok.inj n n l l false true false true
      [weakM c (4 * c.gR ^ 2) 0 ⟨0, 3, 1, 2⟩, weakM c (4 * couplingL A c l n ^ 2) 0 ⟨0, 2, 1, 3⟩,
        weakM c 0 (4 * couplingL A c l n * c.gR) ⟨2, 3, 0, 1⟩]
      (fun y hy => by
        simp only [List.mem_cons, List.not_mem_nil, or_false] at hy
        rcases hy with rfl | rfl | rfl
        · exact weakM_ok _ _ _ (by rw [normOrder_lits.2.1]; decide)
        · exact weakM_ok _ _ _ (by rw [normOrder_lits.2.2.1]; decide)
        · exact weakM_ok _ _ _ (by rw [normOrder_lits.2.2.2]; decide))
    obtain rfl : o' = o := Except.ok.inj (e'.symm.trans hdo)
    exact ⟨n, l, hall i hio⟩

/-- **C107, neutrinos.** Every integral generated from `neutrino_interactions` is one of a scattering `a + b → c + d`. -/
theorem C107_only_scatterings (c : LibConst) (leptons neutrinos : List S) (ok : Light A neutrinos leptons) :
    ∀ out, (neutrinoInteractions A c leptons neutrinos).mapM (Decl.integrals A) = .ok out →
      ∀ i ∈ out.flatten, TwoTwo i := by
  intro out e i hi
  have hs := (library_sound c ok.inj leptons neutrinos).1 out e i hi
  obtain ⟨a, b, h⟩ := library_pairs c leptons neutrinos ok out e i hi
  exact pairs_twoTwo ok.mass hs a b h

/-- What is balanced in a list of generated scatterings: every kernel made of the matrix elements feeds all positions of an event
alike, and is not negative if the terms of the weak interactions are not. -/
def BalancedList (c : LibConst) (l : List (Integral4 S)) : Prop :=
  ∀ {α β : Fin 4 → Fin 4 → Fin 4 → Fin 4 → ℝ}, PairFn α → PairFn β → (∀ i j k l, α k l i j = α i j k l) → ∀ θ,
    ∃ B, (∀ i, totalAmp (evAmp θ i α) (evAmp θ i β) l = B) ∧ (WeakNonneg c α β → 0 ≤ B)

/-- The arrays of a balanced list of scatterings, and their totals. -/
theorem list_scatterings (c : LibConst) (leptons neutrinos : List S) (ok : Light A neutrinos leptons) (l : List (Integral4 S))
    (hsound : ∀ i ∈ l, Sound A (· ∈ neutrinos ++ leptons) i) (htwo : ∀ i ∈ l, TwoTwo i) (hamp : BalancedList c l) :
    ∀ (sp : S → Species) (st : S → PState ι) (GF : ℝ) (p : Params) (P : S → ℝ) (r : Fin l.length → Int4 ι)
      (sched : Fin l.length → List (List ℕ)), 0 < p.aT → 0 < p.a → (∀ n : Fin l.length, Runs A sp st GF l[(n : ℕ)] (r n)) →
    (∀ n, Plain4 (r n)) → (∀ n, Covers4 (r n) (sched n)) →
    (∀ s ∈ neutrinos ++ leptons, 0 ≤ (sp s).mass ∧ 0 ≤ P s ∧ Regular (toC (sp s) (st s) p)) →
    (∀ n : Fin l.length, (r n).max1 = P (specieAt l[(n : ℕ)] 1)) → (∀ n, ∀ y ∈ ((r n).sp 0).grid, y ≤ (r n).ub) →
    (∀ n : Fin l.length, 3 * (((r n).sp 2).mass + ((r n).sp 3).mass - ((r n).sp 0).mass) * p.a ≤ P (specieAt l[(n : ℕ)] 1)) →
    ∃ (f : S → ℝ → ℝ) (J : Fin l.length → ℝ → ℝ),
      (∀ (n : Fin l.length) j q, 0 ≤ q → occAt ((r n).reaction p j).specie q = .ok (f (specieAt l[(n : ℕ)] j) q)) ∧
      (∀ n, Returns4 (r n) p (sched n) (J n)) ∧
      (∀ n : Fin l.length, (r n).reaction p = evR (fun s => toC (sp s) (st s) p) (specieAt l[(n : ℕ)])) ∧
      (∀ n : Fin l.length, Scatter4 (evR (fun s => toC (sp s) (st s) p) (specieAt l[(n : ℕ)]))
        ((l[(n : ℕ)].Ms.map M4.toC).map (toCM GF)) (fun j => f (specieAt l[(n : ℕ)] j))) ∧
      (∀ s, Measurable (f s)) ∧ (∀ s, ∃ B, ∀ q, 0 ≤ q → |f s q| ≤ B) ∧
      AmpBalanced (fun s => toC (sp s) (st s) p) (fun n : Fin l.length => specieAt l[(n : ℕ)])
        (fun n => (l[(n : ℕ)].Ms.map M4.toC).map (toCM GF)) ∧
      ((∀ E p m : Fin 4 → ℝ, (∀ i, 0 ≤ p i ∧ 0 ≤ E i ∧ E i ^ 2 = p i ^ 2 + m i ^ 2) →
          WeakNonneg c (avgTerm GF E p m 1 0) (avgTerm GF E p m 0 1)) →
        AmpNonneg (fun s => toC (sp s) (st s) p) (fun n : Fin l.length => specieAt l[(n : ℕ)])
          (fun n => (l[(n : ℕ)].Ms.map M4.toC).map (toCM GF))) ∧
      ∀ q : S → ℝ → ℝ, (∀ s, Measurable (q s)) → (∀ s R, ∃ C, ∀ E, |E| ≤ R → |q s E| ≤ C) →
        ∑ n : Fin l.length, ((r n).sp 0).dof * ∫ y in Set.Ioc 0 (P l[(n : ℕ)].particle),
          y ^ 2 * (q l[(n : ℕ)].particle (energyOf (((r n).sp 0).mass * p.a) y) * J n y) =
        2 * (p.aT ^ 3 * common4 GF p * ∑ n : Fin l.length, ∫ a, q (specieAt l[(n : ℕ)] 0) (p.aT * a) * ∫ b, ∫ c',
          rateBoxed (evR (fun s => toC (sp s) (st s) p) (specieAt l[(n : ℕ)])) ((l[(n : ℕ)].Ms.map M4.toC).map (toCM GF))
            (fun j => f (specieAt l[(n : ℕ)] j)) (fun j => P (specieAt l[(n : ℕ)] j) / p.aT) (-1) (place2 1 a b c')) := by
  intro sp st GF p P r sched haT ha hrun hpl hcov hspec hmax hwhole hthr
  have hbal := ampBalanced_of (fun s => toC (sp s) (st s) p) GF l htwo (by
    intro α β hα hβ hs θ
    obtain ⟨B, h, -⟩ := hamp hα hβ hs θ
    exact ⟨B, h⟩)
  have hnon : (∀ E p m : Fin 4 → ℝ, (∀ i, 0 ≤ p i ∧ 0 ≤ E i ∧ E i ^ 2 = p i ^ 2 + m i ^ 2) →
      WeakNonneg c (avgTerm GF E p m 1 0) (avgTerm GF E p m 0 1)) →
      AmpNonneg (fun s => toC (sp s) (st s) p) (fun n : Fin l.length => specieAt l[(n : ℕ)])
        (fun n => (l[(n : ℕ)].Ms.map M4.toC).map (toCM GF)) := by
    intro hw θ k E hon
    have w := hw E k _ hon
    rw [evTotal_eq _ GF l htwo]
    obtain ⟨B, h, n⟩ := hamp (avgTerm_pair GF E k (fun i => (toC (sp (θ i)) (st (θ i)) p).m) 1 0)
      (avgTerm_pair GF E k (fun i => (toC (sp (θ i)) (st (θ i)) p).m) 0 1)
      (avgTerm_swap GF E k (fun i => (toC (sp (θ i)) (st (θ i)) p).m) 1) θ
    rw [h]
    exact n w
  have hm : ∀ n : Fin l.length, l[(n : ℕ)] ∈ l := fun n => List.getElem_mem n.2
  have hMs : ∀ n : Fin l.length, (r n).Ms = l[(n : ℕ)].Ms.map M4.toC := fun n => (hrun n).Ms
  have hsp : ∀ (n : Fin l.length) j, (r n).sp j = sp (specieAt l[(n : ℕ)] j) := fun n j => ((hrun n).sp_eq j).1
  obtain ⟨f, J, hf, hJ, hr, hd, hfm, hfb, htot⟩ := family_arrays (fun n : Fin l.length => specieAt l[(n : ℕ)]) r sp st p sched P GF haT ha
    hsp (fun n j => ((hrun n).sp_eq j).2) (fun n j => (hrun n).side_eq (htwo _ (hm n)) j) (fun n => (hrun n).GF)
    (fun n => by rw [hMs]; simpa using (hsound _ (hm n)).some)
    (by
      intro n M hM
      rw [hMs] at hM
      obtain ⟨x, hx, rfl⟩ := List.mem_map.mp hM
      exact ((hsound _ (hm n)).elems x hx).1)
    (by
      intro n M hM
      rw [hMs] at hM
      obtain ⟨x, hx, rfl⟩ := List.mem_map.mp hM
      exact Ordered.bijective x ((hsound _ (hm n)).elems x hx))
    hpl (fun n j => (hspec _ ((hsound _ (hm n)).mem j)).1) (fun n j => (hspec _ ((hsound _ (hm n)).mem j)).2.1) hmax hwhole
    (fun n => by rw [← hsp, ← hsp, ← hsp]; exact hthr n) hcov (fun n j => (hspec _ ((hsound _ (hm n)).mem j)).2.2)
  refine ⟨f, J, ?_, hJ, hr, fun n => by rw [← hMs]; exact hd n, hfm, hfb, hbal, hnon, ?_⟩
  · intro n j q hq
    have := hf n j q hq
    change occAt (toC ((r n).sp j) ((r n).st j) p) q = _
    rw [hsp, ((hrun n).sp_eq j).2]
    exact this
  have hw : ∀ n, (r n).weight = ((r n).sp 0).dof / 2 := by
    intro n
    unfold Int4.weight
    rw [(hrun n).mult, (hsound _ (hm n)).mult (htwo _ (hm n)) ok.name, (hrun n).majorana, ok.dirac, div_one]
    rfl
  have hp0 : ∀ n : Fin l.length, specieAt l[(n : ℕ)] 0 = l[(n : ℕ)].particle := fun n => (hsound _ (hm n)).particle
  intro q h1 h2
  have := htot q h1 h2
  have e : ∀ n : Fin l.length, ((r n).sp 0).dof * ∫ y in Set.Ioc 0 (P l[(n : ℕ)].particle),
      y ^ 2 * (q l[(n : ℕ)].particle (energyOf (((r n).sp 0).mass * p.a) y) * J n y) =
      2 * ((r n).weight * ∫ y in Set.Ioc 0 (P (specieAt l[(n : ℕ)] 0)),
        y ^ 2 * (q (specieAt l[(n : ℕ)] 0) (energyOf ((sp (specieAt l[(n : ℕ)] 0)).mass * p.a) y) * J n y)) := by
    intro n
    rw [hw, ← hsp, hp0]; ring
  rw [Finset.sum_congr rfl fun n _ => e n, ← Finset.mul_sum, this]
  simp only [hMs]

theorem twoTwo_sound (c : LibConst) {leptons neutrinos : List S} (ok : Light A neutrinos leptons) {o1 o2 : List (List (Integral4 S))}
    (e1 : (neutrinoInteractions A c leptons neutrinos).mapM (Decl.integrals A) = .ok o1)
    (e2 : (leptonInteractions A c leptons neutrinos).mapM (Decl.integrals A) = .ok o2) (l : List (Integral4 S))
    (hl : l = (o1.flatten ++ o2.flatten).filter (fun i => TwoTwo i)) :
    (∀ i ∈ l, Sound A (· ∈ neutrinos ++ leptons) i) ∧ ∀ i ∈ l, TwoTwo i := by
  subst hl
  refine ⟨fun i hi => ?_, fun i hi => by simpa using (List.mem_filter.mp hi).2⟩
  rcases List.mem_append.mp (List.mem_filter.mp hi).1 with hi | hi
  · exact (library_sound c ok.inj leptons neutrinos).1 o1 e1 i hi
  · exact (library_sound c ok.inj leptons neutrinos).2 o2 e2 i hi

theorem twoTwo_balanced (c : LibConst) {leptons neutrinos : List S} (ok : Light A neutrinos leptons)
    {o1 o2 : List (List (Integral4 S))} (e1 : (neutrinoInteractions A c leptons neutrinos).mapM (Decl.integrals A) = .ok o1)
    (e2 : (leptonInteractions A c leptons neutrinos).mapM (Decl.integrals A) = .ok o2)
    (hamp : ∀ {α β : Fin 4 → Fin 4 → Fin 4 → Fin 4 → ℝ}, PairFn α → PairFn β → (∀ i j k l, α k l i j = α i j k l) → ∀ θ,
      (∃ B, (∀ i, totalAmp (evAmp θ i α) (evAmp θ i β) o1.flatten = B) ∧ (WeakNonneg c α β → 0 ≤ B)) ∧
      (∃ B, (∀ i, totalAmp (evAmp θ i α) (evAmp θ i β) o2.flatten = B) ∧ (WeakNonneg c α β → 0 ≤ B)))
    (l : List (Integral4 S)) (hl : l = (o1.flatten ++ o2.flatten).filter (fun i => TwoTwo i)) : BalancedList c l := by
  have hsound' : ∀ i ∈ o1.flatten ++ o2.flatten, Sound A (· ∈ neutrinos ++ leptons) i := by
    intro i hi
    rcases List.mem_append.mp hi with hi | hi
    · exact (library_sound c ok.inj leptons neutrinos).1 o1 e1 i hi
    · exact (library_sound c ok.inj leptons neutrinos).2 o2 e2 i hi
  intro α β hα hβ hs θ
  obtain ⟨⟨B1, h1, n1⟩, ⟨B2, h2, n2⟩⟩ := hamp hα hβ hs θ
  refine ⟨B1 + B2, fun i => ?_, fun w => add_nonneg (n1 w) (n2 w)⟩
  rw [hl, totalAmp_twoTwo _ θ i α β _ hsound', totalAmp_append, h1, h2]

/-- The arrays of all scatterings generated from `neutrino_interactions` and `lepton_interactions`, and their totals. -/
theorem sm_scatterings (c : LibConst) (leptons neutrinos : List S) (ok : Light A neutrinos leptons) :
    ∃ o1 o2, (neutrinoInteractions A c leptons neutrinos).mapM (Decl.integrals A) = .ok o1 ∧
      (leptonInteractions A c leptons neutrinos).mapM (Decl.integrals A) = .ok o2 ∧
      ∀ l, l = (o1.flatten ++ o2.flatten).filter (fun i => TwoTwo i) →
      ∀ (sp : S → Species) (st : S → PState ι) (GF : ℝ) (p : Params) (P : S → ℝ) (r : Fin l.length → Int4 ι)
        (sched : Fin l.length → List (List ℕ)), 0 < p.aT → 0 < p.a → (∀ n : Fin l.length, Runs A sp st GF l[(n : ℕ)] (r n)) →
      (∀ n, Plain4 (r n)) → (∀ n, Covers4 (r n) (sched n)) →
      (∀ s ∈ neutrinos ++ leptons, 0 ≤ (sp s).mass ∧ 0 ≤ P s ∧ Regular (toC (sp s) (st s) p)) →
      (∀ n : Fin l.length, (r n).max1 = P (specieAt l[(n : ℕ)] 1)) → (∀ n, ∀ y ∈ ((r n).sp 0).grid, y ≤ (r n).ub) →
      (∀ n : Fin l.length, 3 * (((r n).sp 2).mass + ((r n).sp 3).mass - ((r n).sp 0).mass) * p.a ≤ P (specieAt l[(n : ℕ)] 1)) →
      ∃ (f : S → ℝ → ℝ) (J : Fin l.length → ℝ → ℝ),
        (∀ (n : Fin l.length) j q, 0 ≤ q → occAt ((r n).reaction p j).specie q = .ok (f (specieAt l[(n : ℕ)] j) q)) ∧
        (∀ n, Returns4 (r n) p (sched n) (J n)) ∧
        (∀ n : Fin l.length, (r n).reaction p = evR (fun s => toC (sp s) (st s) p) (specieAt l[(n : ℕ)])) ∧
        (∀ n : Fin l.length, Scatter4 (evR (fun s => toC (sp s) (st s) p) (specieAt l[(n : ℕ)]))
          ((l[(n : ℕ)].Ms.map M4.toC).map (toCM GF)) (fun j => f (specieAt l[(n : ℕ)] j))) ∧
        (∀ s, Measurable (f s)) ∧ (∀ s, ∃ B, ∀ q, 0 ≤ q → |f s q| ≤ B) ∧
        AmpBalanced (fun s => toC (sp s) (st s) p) (fun n : Fin l.length => specieAt l[(n : ℕ)])
          (fun n => (l[(n : ℕ)].Ms.map M4.toC).map (toCM GF)) ∧
        ((∀ E p m : Fin 4 → ℝ, (∀ i, 0 ≤ p i ∧ 0 ≤ E i ∧ E i ^ 2 = p i ^ 2 + m i ^ 2) →
            WeakNonneg c (avgTerm GF E p m 1 0) (avgTerm GF E p m 0 1)) →
          AmpNonneg (fun s => toC (sp s) (st s) p) (fun n : Fin l.length => specieAt l[(n : ℕ)])
            (fun n => (l[(n : ℕ)].Ms.map M4.toC).map (toCM GF))) ∧
        ∀ q : S → ℝ → ℝ, (∀ s, Measurable (q s)) → (∀ s R, ∃ C, ∀ E, |E| ≤ R → |q s E| ≤ C) →
          ∑ n : Fin l.length, ((r n).sp 0).dof * ∫ y in Set.Ioc 0 (P l[(n : ℕ)].particle),
            y ^ 2 * (q l[(n : ℕ)].particle (energyOf (((r n).sp 0).mass * p.a) y) * J n y) =
          2 * (p.aT ^ 3 * common4 GF p * ∑ n : Fin l.length, ∫ a, q (specieAt l[(n : ℕ)] 0) (p.aT * a) * ∫ b, ∫ c',
            rateBoxed (evR (fun s => toC (sp s) (st s) p) (specieAt l[(n : ℕ)])) ((l[(n : ℕ)].Ms.map M4.toC).map (toCM GF))
              (fun j => f (specieAt l[(n : ℕ)] j)) (fun j => P (specieAt l[(n : ℕ)] j) / p.aT) (-1) (place2 1 a b c')) := by
  obtain ⟨o1, o2, e1, e2, hamp⟩ := library_amp (c := c) ok.inj ok.dirac leptons neutrinos
  refine ⟨o1, o2, e1, e2, ?_⟩
  intro l hl
  exact list_scatterings c leptons neutrinos ok l (twoTwo_sound c ok e1 e2 l hl).1 (twoTwo_sound c ok e1 e2 l hl).2
    (twoTwo_balanced c ok e1 e2 hamp l hl)

/-- **C107.** All scatterings `a + b → c + d` generated from `neutrino_interactions` and `lepton_interactions`.  Each is
evaluated by `integrate` on grids which end at comoving momenta `P`.  The arrays are samples of functions `J`.  If no event
is inside the grids of one side of its reaction only, whatever is additive in every reaction is conserved by all of them
together; so are the number of particles and the comoving energy. -/
theorem C107_totals (c : LibConst) (leptons neutrinos : List S) (ok : Light A neutrinos leptons) :
    ∃ o1 o2, (neutrinoInteractions A c leptons neutrinos).mapM (Decl.integrals A) = .ok o1 ∧
      (leptonInteractions A c leptons neutrinos).mapM (Decl.integrals A) = .ok o2 ∧
      ∀ l, l = (o1.flatten ++ o2.flatten).filter (fun i => TwoTwo i) →
      ∀ (sp : S → Species) (st : S → PState ι) (GF : ℝ) (p : Params) (P : S → ℝ) (r : Fin l.length → Int4 ι)
        (sched : Fin l.length → List (List ℕ)), 0 < p.aT → 0 < p.a → (∀ n : Fin l.length, Runs A sp st GF l[(n : ℕ)] (r n)) →
      (∀ n, Plain4 (r n)) → (∀ n, Covers4 (r n) (sched n)) →
      (∀ s ∈ neutrinos ++ leptons, 0 ≤ (sp s).mass ∧ 0 ≤ P s ∧ Regular (toC (sp s) (st s) p)) →
      (∀ n : Fin l.length, (r n).max1 = P (specieAt l[(n : ℕ)] 1)) → (∀ n, ∀ y ∈ ((r n).sp 0).grid, y ≤ (r n).ub) →
      (∀ n : Fin l.length, 3 * (((r n).sp 2).mass + ((r n).sp 3).mass - ((r n).sp 0).mass) * p.a ≤ P (specieAt l[(n : ℕ)] 1)) →
      ∃ (f : S → ℝ → ℝ) (J : Fin l.length → ℝ → ℝ),
        (∀ (n : Fin l.length) j q, 0 ≤ q → occAt ((r n).reaction p j).specie q = .ok (f (specieAt l[(n : ℕ)] j) q)) ∧
        (∀ n, Returns4 (r n) p (sched n) (J n)) ∧
        ((∀ n : Fin l.length, Confined ((r n).reaction p) (fun j => f (specieAt l[(n : ℕ)] j))
            fun j => P (specieAt l[(n : ℕ)] j) / p.aT) →
          (∀ q : S → ℝ → ℝ, (∀ s, Measurable (q s)) → (∀ s R, ∃ C, ∀ E, |E| ≤ R → |q s E| ≤ C) →
            (∀ i ∈ l, ∀ x y z w, x + y = z + w →
              q (specieAt i 0) x + q (specieAt i 1) y = q (specieAt i 2) z + q (specieAt i 3) w) →
            ∑ n : Fin l.length, ((r n).sp 0).dof * ∫ y in Set.Ioc 0 (P l[(n : ℕ)].particle),
              y ^ 2 * (q l[(n : ℕ)].particle (energyOf (((r n).sp 0).mass * p.a) y) * J n y) = 0) ∧
          (∑ n : Fin l.length, ((r n).sp 0).dof * ∫ y in Set.Ioc 0 (P l[(n : ℕ)].particle), y ^ 2 * J n y = 0) ∧
          ∑ n : Fin l.length, ((r n).sp 0).dof * ∫ y in Set.Ioc 0 (P l[(n : ℕ)].particle),
            y ^ 2 * (energyOf (((r n).sp 0).mass * p.a) y * J n y) = 0) := by
  obtain ⟨o1, o2, e1, e2, h⟩ := sm_scatterings (ι := ι) c leptons neutrinos ok
  refine ⟨o1, o2, e1, e2, ?_⟩
  intro l hl sp st GF p P r sched haT ha hrun hpl hcov hspec hmax hwhole hthr
  obtain ⟨f, J, hf, hJ, hr, hd, -, -, hbal, -, htot⟩ := h l hl sp st GF p P r sched haT ha hrun hpl hcov hspec hmax hwhole hthr
  refine ⟨f, J, hf, hJ, fun hc => ?_⟩
  have key : ∀ q : S → ℝ → ℝ, (∀ s, Measurable (q s)) → (∀ s R, ∃ C, ∀ E, |E| ≤ R → |q s E| ≤ C) →
      (∀ i ∈ l, ∀ x y z w, x + y = z + w →
        q (specieAt i 0) x + q (specieAt i 1) y = q (specieAt i 2) z + q (specieAt i 3) w) →
      ∑ n : Fin l.length, ((r n).sp 0).dof * ∫ y in Set.Ioc 0 (P l[(n : ℕ)].particle),
        y ^ 2 * (q l[(n : ℕ)].particle (energyOf (((r n).sp 0).mass * p.a) y) * J n y) = 0 := by
    intro q h1 h2 h3
    rw [htot q h1 h2, events_total (P := fun s => P s / p.aT) (fun n : Fin l.length => specieAt l[(n : ℕ)]) _ hbal hd
      (fun n => by rw [← hr]; exact hc n) (fun s E => q s (p.aT * E))
      (fun s => (h1 s).comp (measurable_const_mul _)) (fun s R => ?_)
      (fun n x y z w h => h3 _ (List.getElem_mem n.2) _ _ _ _ (by rw [← mul_add, h, mul_add])), mul_zero, mul_zero]
    obtain ⟨C, hC⟩ := h2 s (p.aT * R)
    refine ⟨C, fun E hE => hC _ ?_⟩
    rw [abs_mul, abs_of_pos haT]
    exact mul_le_mul_of_nonneg_left hE haT.le
  refine ⟨key, ?_, ?_⟩
  · have := key (fun _ _ => 1) (fun _ => measurable_const) (fun _ _ => ⟨1, fun _ _ => by simp⟩)
      (fun _ _ _ _ _ _ _ => rfl)
    simpa only [one_mul] using this
  · exact key (fun _ E => E) (fun _ => measurable_id) (fun _ R => ⟨R, fun _ h => h⟩) fun _ _ _ _ _ _ h => h

end

/-! ## Spectra that end inside the grid -/

/-- If the stored values are zero from the grid point `k` on, so is the occupation number which the C++ code reads. -/
theorem C107_spectrum_ends (s : CParticle) (hin : s.inEq = false) (hne : s.grid ≠ []) (hs : s.grid.Pairwise (· < ·))
    (hlen : s.dist.length = s.grid.length) (k : ℕ) (hk : k < s.grid.length)
    (hz : ∀ i, k ≤ i → ∀ h : i < s.dist.length, s.dist[i] = 0) (p : ℝ) (hp : s.grid[k] ≤ p) : occAt s p = .ok 0 := by
  have hd : s.dist ≠ [] := by
    intro h; apply hne; rw [h] at hlen; exact List.length_eq_zero_iff.mp hlen.symm
  have mono : ∀ i j (hi : i < s.grid.length) (hj : j < s.grid.length), s.grid[i] ≤ s.grid[j] → i ≤ j := by
    intro i j hi hj h
    by_contra hn
    exact absurd (List.pairwise_iff_getElem.mp hs j i hj hi (not_le.mp hn)) (not_lt.mpr h)
  unfold occAt
  rw [hin]
  rcases grid_cases s.grid p hne hs with h | h | ⟨i, hi, rfl⟩ | ⟨i, hi, h1, h2⟩
  · rw [C09_above _ _ _ _ _ _ hne hlen h hd, List.getLast_eq_getElem, hz _ (by omega), zero_mul]
  · exact absurd (h _ (List.getElem_mem hk)) (not_lt.mpr hp)
  · rw [C09_exact_on_grid _ _ _ _ _ hs hlen i hi, hz i (mono k i hk hi hp)]
  · rw [lookup_between _ _ _ _ _ _ hs hlen i hi h1 h2, interpCell]
    have hki : k ≤ i := by
      by_contra hn
      have : s.grid[i + 1] ≤ s.grid[k] := by
        rcases Nat.lt_or_ge (i + 1) k with h | h
        · exact (List.pairwise_iff_getElem.mp hs (i + 1) k hi hk h).le
        · have : i + 1 = k := by omega
          subst this; exact le_rfl
      linarith
    simp [hz i hki]

section Example
private noncomputable def allSp (s : Fin 5) : Species :=
  { name := "X", mass := termsAttr.mass s, dof := 2, fermion := true, thermalDyn := false, Q := 0, grid := [0, 1, 1000],
    fastDecay := false, lifetime := 0 }
private noncomputable def allSt (s : Fin 5) : PState ℕ :=
  { T := 1, aT := 1, Tdec := 2, dist := ![[0, 0, 0], [1/3, 0, 0], [1/5, 0, 0], [1/2, 0, 0], [1/4, 0, 0]] s, coll := [],
    integrals := [], tDec := 0, decayed := false, density := 0, histDist := [], histColl := [], histT := [],
    histDensity := [] }
private noncomputable def allP : Params :=
  { log := true, m := 1, T := 1, a := 1, aIni := 1, x := 1, y := none, aT := 1, t := 1, H := 1, rho := none,
    S := none, Neff := 3, dy := 1, dx := 1, h := 1 }
private noncomputable def allRun (i : Integral4 (Fin 5)) : Int4 ℕ :=
  { sp := fun j => allSp (specieAt i j), st := fun j => allSt (specieAt i j), side := ![-1, -1, 1, 1],
    Ms := i.Ms.map M4.toC, GF := 1, majorana := false, mult := multOf termsAttr i, kind := .full, neglect := false,
    min1 := 0, max1 := 1000, min2 := 0, max2 := 1000, max3 := 1000, ub := 1000, creationFast := false, br := none, num := 0,
    total := fun _ => 0 }

/-- Electrons, muons and two neutrinos with spectra far from equilibrium, which end at momentum 1, on grids up to 1000:
the scatterings change neither their number nor their energy. -/
example (c : LibConst) : ∃ o1 o2, (neutrinoInteractions termsAttr c [4, 3] [1, 2]).mapM (Decl.integrals termsAttr) = .ok o1 ∧
    (leptonInteractions termsAttr c [4, 3] [1, 2]).mapM (Decl.integrals termsAttr) = .ok o2 ∧
    ∀ l, l = (o1.flatten ++ o2.flatten).filter (fun i => TwoTwo i) → ∃ J : Fin l.length → ℝ → ℝ,
      (∀ n : Fin l.length, Returns4 (allRun l[(n : ℕ)]) allP (oneThread4 (allRun l[(n : ℕ)])) (J n)) ∧
      ∑ n : Fin l.length, (2 : ℝ) * ∫ y in Set.Ioc 0 1000, y ^ 2 * J n y = 0 := by
  obtain ⟨o1, o2, e1, e2, h⟩ := C107_totals (ι := ℕ) c [4, 3] [1, 2] termsAttr_light
  refine ⟨o1, o2, e1, e2, fun l hl => ?_⟩
  have hsound : ∀ i ∈ l, Sound termsAttr (· ∈ [1, 2] ++ [4, 3]) i ∧ TwoTwo i := by
    intro i hi
    rw [hl] at hi
    obtain ⟨hi, ht⟩ := List.mem_filter.mp hi
    refine ⟨?_, by simpa using ht⟩
    rcases List.mem_append.mp hi with hi | hi
    · exact (library_sound c termsAttr_light.inj [4, 3] [1, 2]).1 o1 e1 i hi
    · exact (library_sound c termsAttr_light.inj [4, 3] [1, 2]).2 o2 e2 i hi
  have hm : ∀ n : Fin l.length, l[(n : ℕ)] ∈ l := fun n => List.getElem_mem n.2
  have mass : ∀ s : Fin 5, s ∈ ([1, 2] ++ [4, 3] : List (Fin 5)) → 0 ≤ (allSp s).mass ∧ (allSp s).mass ≤ 105 := by
    intro s hs
    simp only [List.cons_append, List.nil_append, List.mem_cons, List.not_mem_nil, or_false] at hs
    rcases hs with rfl | rfl | rfl | rfl
    · change (0 : ℝ) ≤ 0 ∧ (0 : ℝ) ≤ 105; norm_num
    · change (0 : ℝ) ≤ 0 ∧ (0 : ℝ) ≤ 105; norm_num
    · change (0 : ℝ) ≤ 1 / 2 ∧ (1 / 2 : ℝ) ≤ 105; norm_num
    · change (0 : ℝ) ≤ 105 ∧ (105 : ℝ) ≤ 105; norm_num
  have hlen : ∀ s, (allSt s).dist.length = 3 := by intro s; fin_cases s <;> rfl
  have zero : ∀ s i, 1 ≤ i → ∀ h : i < (allSt s).dist.length, (allSt s).dist[i] = 0 := by
    intro s i hi h
    have h' : i < 3 := by rw [← hlen s]; exact h
    have : i = 1 ∨ i = 2 := by omega
    fin_cases s <;> rcases this with rfl | rfl <;> rfl
  have reg : ∀ s, Regular (toC (allSp s) (allSt s) allP) := by
    intro s
    refine regular_toC _ _ _ (by norm_num [allP]) [1, 1000] ?_ rfl (by norm_num [allSp, StrictInc]) (hlen s)
      (by norm_num [allSt]) ?_
    · simp [inEq, allSp]
    · fin_cases s <;> norm_num [allSt, allSp]
  have hmul : ∀ n : Fin l.length, multOf termsAttr l[(n : ℕ)] = 1 := fun n =>
    (hsound _ (hm n)).1.mult (hsound _ (hm n)).2 termsAttr_light.name
  obtain ⟨f, J, hf, hJ, htot⟩ := h l hl allSp allSt 1 allP (fun _ => 1000) (fun n => allRun l[(n : ℕ)])
    (fun n => oneThread4 (allRun l[(n : ℕ)])) (by norm_num [allP]) (by norm_num [allP])
    (by
      intro n
      obtain ⟨h1, h2⟩ := hsound _ (hm n)
      refine ⟨fun j => ?_, rfl, rfl, rfl, rfl⟩
      have hj : (j : ℕ) < l[(n : ℕ)].reaction.length := by rw [h1.four]; exact j.2
      have hx := List.getElem?_eq_getElem hj
      have hs : specieAt l[(n : ℕ)] j = (l[(n : ℕ)].reaction[(j : ℕ)]).specie := by unfold specieAt; rw [hx]; rfl
      refine ⟨_, hx, congrArg allSp hs, congrArg allSt hs, ?_⟩
      have h5 : (l[(n : ℕ)].reaction.map (·.side))[(j : ℕ)]? = some (l[(n : ℕ)].reaction[(j : ℕ)]).side := by
        rw [List.getElem?_map, hx]; rfl
      rw [h2] at h5
      fin_cases j <;> exact Option.some.inj h5)
    (fun n =>
      { kind := Or.inl rfl, slow := rfl, active := rfl, min1 := rfl, grid := List.cons_ne_nil _ _
        nonneg := by norm_num [allRun, allSp]
        inc := by norm_num [allRun, allSp, StrictInc]
        stored := hlen _
        dof := by norm_num [allRun, allSp, dofFactor]
        mult := by
          change multOf termsAttr l[(n : ℕ)] ≠ 0
          rw [hmul n]; exact one_ne_zero })
    (fun n => covers4_oneThread _) (fun s hs => ⟨(mass s hs).1, by norm_num, reg s⟩) (fun n => rfl)
    (by
      intro n
      change ∀ y ∈ [(0 : ℝ), 1, 1000], y ≤ 1000
      norm_num)
    (by
      intro n
      change 3 * ((allSp (specieAt l[(n : ℕ)] 2)).mass + (allSp (specieAt l[(n : ℕ)] 3)).mass -
        (allSp (specieAt l[(n : ℕ)] 0)).mass) * 1 ≤ 1000
      have a := fun j => mass _ ((hsound _ (hm n)).1.mem j)
      linarith [(a 2).2, (a 3).2, (a 0).1])
  refine ⟨J, hJ, ?_⟩
  refine (htot fun n => ?_).2.1
  have a := fun j => mass _ ((hsound _ (hm n)).1.mem j)
  have hmass : ∀ j, ((allRun l[(n : ℕ)]).reaction allP j).specie.m = (allSp (specieAt l[(n : ℕ)] j)).mass := by
    intro j
    change (allSp (specieAt l[(n : ℕ)] j)).mass * 1 / 1 = _
    rw [mul_one, div_one]
  have ends : ∀ j q, 1 < q → f (specieAt l[(n : ℕ)] j) q = 0 := by
    intro j q hq
    have h1 := hf n j q (by linarith)
    have h2 := C107_spectrum_ends ((allRun l[(n : ℕ)]).reaction allP j).specie
      (by change inEq (allSp _) (allSt _) = false; simp [inEq, allSp]) (List.cons_ne_nil _ _)
      (by
        change [(0 : ℝ) / 1, 1 / 1, 1000 / 1].Pairwise (· < ·)
        norm_num)
      (hlen _) 1 (by change 1 < 3; norm_num)
      (fun i hi h => zero (specieAt l[(n : ℕ)] j) i hi h)
      q (by change (1 : ℝ) / 1 ≤ q; linarith)
    exact Except.ok.inj (h1.symm.trans h2)
  have e1 : ∀ m : ℝ, 0 ≤ m → m ≤ 105 → energyOf m 1 ≤ 106 := by
    intro m h0 h1
    unfold energyOf
    rw [Real.sqrt_le_left (by norm_num)]; nlinarith
  have e2 : ∀ m : ℝ, (1000 : ℝ) ≤ energyOf m 1000 := by
    intro m
    unfold energyOf; apply Real.le_sqrt_of_sq_le; nlinarith [sq_nonneg m]
  refine C104_confined ⟨rfl, rfl, rfl, rfl⟩ (fun j => by rw [hmass]; exact (a j).1) (fun _ => 1) (fun _ => by norm_num) ends ?_ ?_ <;>
  intro j
  · rw [hmass, hmass, hmass, hmass]
    have : (1000 : ℝ) / allP.aT = 1000 := by norm_num [allP]
    rw [this]
    linarith [e1 _ (a 0).1 (a 0).2, e1 _ (a 1).1 (a 1).2, (a (mate j)).1, e2 (allSp (specieAt l[(n : ℕ)] j)).mass]
  · rw [hmass, hmass, hmass, hmass]
    have : (1000 : ℝ) / allP.aT = 1000 := by norm_num [allP]
    rw [this]
    linarith [e1 _ (a 2).1 (a 2).2, e1 _ (a 3).1 (a 3).2, (a (mate j)).1, e2 (allSp (specieAt l[(n : ℕ)] j)).mass]
end Example

end PyBBN
