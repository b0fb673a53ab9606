import Verif.Props.EntropyStep
import Verif.Lemmas.EventsLaw
/-!
# The balance of a decay, read off the arrays of `integrate`
-/
namespace PyBBN
open MeasureTheory

variable {ι : Type*}

/-- The totals of the arrays which the four species of `X → a + b + c` obtain from `integrate`, as an integral over events. -/
theorem decay4_law (c : Fin 4 → Int4 ι) (p : Params) (sched : Fin 4 → List (List ℕ)) (P : ℝ)
    (σ : Fin 4 → Equiv.Perm (Fin 4)) (h0 : ∀ i, σ i 0 = i) (h3 : ∀ i, i ≠ 0 → σ i 3 = 0)
    (haT : 0 < p.aT) (ha : 0 < p.a) (hs0 : (c 0).side 0 = -1) (hs : ∀ i, i ≠ 0 → (c 0).side i = 1)
    (hseen : ∀ i, i ≠ 0 → SeenFrom4 (c 0) (c i) (σ i)) (hpl : ∀ i, Plain4 (c i))
    (hm0 : 0 < ((c 0).sp 0).mass) (hm : ∀ i, 0 ≤ ((c 0).sp i).mass)
    (hopen : ((c 0).sp 1).mass + ((c 0).sp 2).mass + ((c 0).sp 3).mass ≤ ((c 0).sp 0).mass)
    (hMs : (c 0).Ms ≠ []) (hK : ∀ M ∈ (c 0).Ms, M.K = 0) (ho : ∀ M ∈ (c 0).Ms, M.order.Bijective)
    (hP : 0 ≤ P) (hP' : ∀ i, i ≠ 0 → (c i).max3 = P) (hwhole : ∀ y ∈ ((c 0).sp 0).grid, y ≤ (c 0).ub)
    (hb : ∀ i, i ≠ 0 → CutBound4 (c i) p) (hcov : ∀ i, Covers4 (c i) (sched i))
    (f : Fin 4 → ℝ → ℝ) (hfm : ∀ i, Measurable (f i)) (B0 : ℝ)
    (hf : ∀ i q, 0 ≤ q → occAt (toC ((c 0).sp i) ((c 0).st i) p) q = .ok (f i q) ∧ 0 ≤ f i q ∧ f i q ≤ B0)
    (Q : Fin 4 → ℝ) (hQ0 : Q 0 = P) (hQ : ∀ i, 0 ≤ Q i)
    (hreach : ∀ i, i ≠ 0 → energyOf (((c 0).sp 0).mass * p.a) P ≤ energyOf (((c 0).sp i).mass * p.a) (Q i) +
      ((c 0).sp (σ i 1)).mass * p.a + ((c 0).sp (σ i 2)).mass * p.a) :
    ∃ J : Fin 4 → ℝ → ℝ, (∀ i, Returns4 (c i) p (sched i) (J i)) ∧
      ∀ q : Fin 4 → ℝ → ℝ, (∀ i, Measurable (q i)) → (∀ R, ∃ C, ∀ i E, |E| ≤ R → |q i E| ≤ C) →
        Nice3 (fun x y z => (q 0 (p.aT * (x + y + z)) - q 1 (p.aT * x) - q 2 (p.aT * y) - q 3 (p.aT * z)) *
          events4 ((c 0).reaction p) ((c 0).Ms.map (toCM (c 0).GF)) f (P / p.aT) ![x + y + z, x, y, z]) ∧
        ∑ i, (c i).weight * ∫ y in Set.Ioc 0 (Q i), y ^ 2 * (q i (energyOf (((c 0).sp i).mass * p.a) y) * J i y) =
          p.aT ^ 3 * common4 (c 0).GF p * ∫ x, ∫ y, ∫ z,
            (q 0 (p.aT * (x + y + z)) - q 1 (p.aT * x) - q 2 (p.aT * y) - q 3 (p.aT * z)) *
              events4 ((c 0).reaction p) ((c 0).Ms.map (toCM (c 0).GF)) f (P / p.aT) ![x + y + z, x, y, z] := by
  have hmass : ∀ i, ((c 0).reaction p i).specie.m = ((c 0).sp i).mass * p.a / p.aT := fun i => rfl
  have d : Decay4 ((c 0).reaction p) ((c 0).Ms.map (toCM (c 0).GF)) f :=
    { parent := hs0, products := hs
      massive := by rw [hmass]; positivity
      masses := fun i => by rw [hmass]; have := hm i; positivity
      isOpen := by
        rw [hmass, hmass, hmass, hmass, ← add_div, ← add_div, ← add_mul, ← add_mul]
        exact div_le_div_of_nonneg_right (mul_le_mul_of_nonneg_right hopen ha.le) haT.le
      eta := fun i => by
        change ((c 0).sp i).eta = 1 ∨ ((c 0).sp i).eta = -1
        unfold Species.eta; split_ifs <;> simp
      occ := fun i q hq => (hf i q hq).1
      nonneg := fun i q hq => (hf i q hq).2.1
      meas := hfm
      bdd := ⟨B0, fun i q hq => (hf i q hq).2.2⟩
      some := by simpa using hMs
      plain := by
        intro M hM
        obtain ⟨M', h, rfl⟩ := List.mem_map.mp hM
        change M'.K / _ = 0
        rw [hK M' h, zero_div]
      order := by
        intro M hM
        obtain ⟨M', h, rfl⟩ := List.mem_map.mp hM
        exact ho M' h }
  obtain ⟨A, B, hsam, hsup, htot⟩ := C102_totals d (P := P / p.aT) (by positivity) σ h0 h3 (fun i => (c i).max1 / p.aT)
    (fun i => (c i).min2 / p.aT) (fun i => (c i).max2 / p.aT) ((c 0).max3 / p.aT)
  set κ := common4 (c 0).GF p with hκ
  set I : Fin 4 → ℝ → ℝ := fun i q => A i q + f i q * B i q with hI
  refine ⟨fun i y => I i (y / p.aT) * (κ / dofFactor (c i).majorana ((c i).sp 0).dof * (c i).mult),
    fun i => decay4_returns c p sched P σ h0 h3 haT hseen hpl hm hP' hwhole hb hcov f A B d.occ hsam hsup i, ?_⟩
  intro q hqm hqb
  have w : ∀ i, (c i).weight * (κ / dofFactor (c i).majorana ((c i).sp 0).dof * (c i).mult) = κ := by
    intro i
    unfold Int4.weight; have := (hpl i).dof; have := (hpl i).mult; field_simp
  obtain ⟨-, -, hN, ht⟩ := htot (fun i E => q i (p.aT * E)) (fun i => (hqm i).comp (measurable_const_mul _)) (fun R => by
    obtain ⟨C, hC⟩ := hqb (p.aT * R)
    refine ⟨C, fun i E hE => hC i _ ?_⟩
    rw [abs_mul, abs_of_pos haT]
    exact mul_le_mul_of_nonneg_left hE haT.le)
  refine ⟨hN, ?_⟩
  have each : ∀ i, (c i).weight * ∫ y in Set.Ioc 0 (Q i), y ^ 2 * (q i (energyOf (((c 0).sp i).mass * p.a) y) *
      (I i (y / p.aT) * (κ / dofFactor (c i).majorana ((c i).sp 0).dof * (c i).mult))) =
      p.aT ^ 3 * κ * ∫ k in Set.Ioc 0 (Q i / p.aT), k ^ 2 * q i (p.aT * energyOf ((c 0).reaction p i).specie.m k) * I i k := by
    intro i
    have := number_scale_Ioc p.aT κ (Q i) haT (hQ i) fun k => q i (p.aT * energyOf ((c 0).reaction p i).specie.m k) * I i k
    simp only [← mul_assoc] at this ⊢
    rw [← this, ← integral_const_mul]
    congr 1
    funext y
    rw [energyOf_div _ y p.aT haT, hmass]
    linear_combination y ^ 2 * q i (p.aT * energyOf (((c 0).sp i).mass * p.a / p.aT) (y / p.aT)) * I i (y / p.aT) * w i
  have cut : ∀ i, i ≠ 0 → ∫ k in Set.Ioc 0 (Q i / p.aT), k ^ 2 * q i (p.aT * energyOf ((c 0).reaction p i).specie.m k) * I i k =
      ∫ k in Set.Ioi 0, k ^ 2 * q i (p.aT * energyOf ((c 0).reaction p i).specie.m k) * I i k := by
    intro i hi
    symm
    refine setIntegral_eq_of_subset_of_forall_sdiff_eq_zero measurableSet_Ioi Set.Ioc_subset_Ioi_self ?_
    rintro k ⟨hk, hk'⟩
    have hk0 : 0 < k := hk
    have hQk : Q i / p.aT < k := by
      by_contra hn
      exact hk' ⟨hk0, not_lt.mp hn⟩
    have : I i k = 0 := by
      by_contra hne
      have hs := hsup i hi k hk0 hne
      have hr := hreach i hi
      rw [energyOf_div _ _ _ haT, energyOf_div (((c 0).sp i).mass * p.a) _ _ haT] at hr
      rw [hmass, hmass, hmass, hmass] at hs
      have hlt : energyOf (((c 0).sp i).mass * p.a / p.aT) (Q i / p.aT) < energyOf (((c 0).sp i).mass * p.a / p.aT) k := by
        unfold energyOf
        refine Real.sqrt_lt_sqrt (by positivity) ?_
        have : 0 ≤ Q i / p.aT := div_nonneg (hQ i) haT.le
        nlinarith
      have h1 := mul_lt_mul_of_pos_left hlt haT
      have h2 := mul_le_mul_of_nonneg_left hs haT.le
      rw [mul_add, mul_add, mul_div_cancel₀ _ haT.ne', mul_div_cancel₀ _ haT.ne'] at h2
      linarith
    rw [this, mul_zero]
  rw [Finset.sum_congr rfl fun i _ => each i, ← Finset.mul_sum]
  congr 1
  rw [Fin.sum_univ_four, cut 1 (by decide), cut 2 (by decide), cut 3 (by decide), hQ0]
  exact ht

/-- Whatever is additive in a decay is conserved by it. -/
theorem events4_additive (r : Fin 4 → Reactant) (Ms : List CM) (f : Fin 4 → ℝ → ℝ) (P b : ℝ) (q : Fin 4 → ℝ → ℝ)
    (hq : ∀ x y z w, x = y + z + w → q 0 x = q 1 y + q 2 z + q 3 w) :
    ∫ x, ∫ y, ∫ z, (q 0 (b * (x + y + z)) - q 1 (b * x) - q 2 (b * y) - q 3 (b * z)) * events4 r Ms f P ![x + y + z, x, y, z] = 0 := by
  have e : ∀ x y z : ℝ, (q 0 (b * (x + y + z)) - q 1 (b * x) - q 2 (b * y) - q 3 (b * z)) * events4 r Ms f P ![x + y + z, x, y, z] = 0 := by
    intro x y z
    rw [hq (b * (x + y + z)) (b * x) (b * y) (b * z) (by ring)]
    ring
  simp [e]

/-- Production of entropy by a decay, with a floor under the occupation numbers. -/
theorem events4_law (r : Fin 4 → Reactant) (Ms : List CM) (f : Fin 4 → ℝ → ℝ) (P : ℝ) (s0 : (r 0).side = -1)
    (hs : ∀ i, i ≠ 0 → (r i).side = 1) (hm : ∀ i, 0 ≤ (r i).specie.m)
    (ho : ∀ M ∈ Ms, M.order.Bijective) (hK : ∀ M ∈ Ms, 0 ≤ M.K1 ∧ 0 ≤ M.K2) (M : ℝ) (hM : 1 ≤ M)
    (hf : ∀ i q, 0 ≤ q → 0 ≤ f i q ∧ f i q ≤ M ∧ 0 ≤ 1 - (r i).specie.eta * f i q ∧ 1 - (r i).specie.eta * f i q ≤ M) :
    ∃ C, 0 ≤ C ∧ ∀ ε, 0 < ε → ε ≤ 1 → ∀ w : Fin 4 → ℝ → ℝ,
      (∀ i E, w i E = Real.log (max (1 - (r i).specie.eta * f i (momOf (r i).specie.m E)) ε) -
        Real.log (max (f i (momOf (r i).specie.m E)) ε)) →
      Nice3 (fun x y z => (w 0 (x + y + z) - w 1 x - w 2 y - w 3 z) * events4 r Ms f P ![x + y + z, x, y, z]) →
      -(C * (ε * (1 + |Real.log ε|))) ≤ ∫ x, ∫ y, ∫ z, (w 0 (x + y + z) - w 1 x - w 2 y - w 3 z) *
        events4 r Ms f P ![x + y + z, x, y, z] := by
  have l3 : 0 ≤ Real.log M := Real.log_nonneg hM
  set R := energyOf (r 0).specie.m P with hR
  have hR0 : 0 ≤ R := Real.sqrt_nonneg _
  obtain ⟨D, hD⟩ := kern_bound r Ms R
  set c0 := 64 * M ^ 3 * (1 + Real.log M) with hc0
  have hc00 : 0 ≤ c0 := by positivity
  refine ⟨(2 * R) ^ 3 * (c0 * |D|), by positivity, fun ε hε hε1 w hw hN => ?_⟩
  set cc := c0 * (ε * (1 + |Real.log ε|)) with hcc
  have hcn : 0 ≤ cc := by positivity
  have sides : ∀ i, (r i).side = 1 ∨ (r i).side = -1 := fun i => by
    by_cases h : i = 0
    · subst h; exact Or.inr s0
    · exact Or.inl (hs i h)
  have box : ∀ x y z : ℝ, events4 r Ms f P ![x + y + z, x, y, z] ≠ 0 → ∀ i : Fin 4,
      0 ≤ (![x + y + z, x, y, z] : Fin 4 → ℝ) i ∧ (![x + y + z, x, y, z] : Fin 4 → ℝ) i ≤ R := by
    intro x y z hne i
    obtain ⟨a, b⟩ := events4_support hne
    have p1 : 0 ≤ x := (hm 1).trans (a 1)
    have p2 : 0 ≤ y := (hm 2).trans (a 2)
    have p3 : 0 ≤ z := (hm 3).trans (a 3)
    change x + y + z ≤ R at b
    fin_cases i
    · exact ⟨by change 0 ≤ x + y + z; linarith, b⟩
    · exact ⟨p1, by change x ≤ R; linarith⟩
    · exact ⟨p2, by change y ≤ R; linarith⟩
    · exact ⟨p3, by change z ≤ R; linarith⟩
  have low := hN.lower R (cc * |D|) hR0
    (by
      intro x y z _ _ _
      by_cases hne : events4 r Ms f P ![x + y + z, x, y, z] = 0
      · rw [hne, mul_zero]
        nlinarith [abs_nonneg D]
      · have hin := box x y z hne
        have hsup := events4_support hne
        set e : Fin 4 → ℝ := ![x + y + z, x, y, z] with he
        have hev : events4 r Ms f P e = kern r Ms (fun i => momOf (r i).specie.m (e i)) e *
            netFlux4 r (fun i => f i (momOf (r i).specie.m (e i))) := by
          unfold events4; exact if_pos hsup
        have hk0 : 0 ≤ kern r Ms (fun i => momOf (r i).specie.m (e i)) e :=
          kern_nonneg r Ms sides hm ho hK _ _ (fun i => Real.sqrt_nonneg _) fun i =>
            (le_abs_self _).trans (momOf_le_self _ _ (hin i).1)
        have hkD : kern r Ms (fun i => momOf (r i).specie.m (e i)) e ≤ |D| :=
          (le_abs_self _).trans ((hD _ _ (fun i => (momOf_le_self _ _ (hin i).1).trans (hin i).2)
            (fun i => by rw [abs_of_nonneg (hin i).1]; exact (hin i).2)).trans (le_abs_self _))
        set g : Fin 4 → ℝ := fun i => f i (momOf (r i).specie.m (e i)) with hg
        have hfθ : ∀ i, 0 ≤ g i ∧ g i ≤ M ∧ 0 ≤ 1 - (r i).specie.eta * g i ∧ 1 - (r i).specie.eta * g i ≤ M :=
          fun i => hf i _ (Real.sqrt_nonneg _)
        set u : Fin 4 → ℝ := fun i => if (r i).side = -1 then g i else 1 - (r i).specie.eta * g i with hu
        set v : Fin 4 → ℝ := fun i => if (r i).side = 1 then g i else 1 - (r i).specie.eta * g i with hv
        have bu : ∀ i, 0 ≤ u i ∧ u i ≤ M := by
          intro i
          obtain ⟨a, b, c, d⟩ := hfθ i
          simp only [hu]
          split_ifs
          exacts [⟨a, b⟩, ⟨c, d⟩]
        have bv : ∀ i, 0 ≤ v i ∧ v i ≤ M := by
          intro i
          obtain ⟨a, b, c, d⟩ := hfθ i
          simp only [hv]
          split_ifs
          exacts [⟨a, b⟩, ⟨c, d⟩]
        have law := flux_floor u v M ε bu bv hM hε hε1
        have enet : netFlux4 r g = ∏ i, v i - ∏ i, u i := rfl
        have hp : ∀ w : Fin 4 → ℝ, ∀ i, max (w i) ε ≠ 0 := fun w i => (lt_max_of_lt_right hε).ne'
        have esum : w 0 (x + y + z) - w 1 x - w 2 y - w 3 z =
            Real.log (∏ i, max (v i) ε) - Real.log (∏ i, max (u i) ε) := by
          have k0 : w 0 (x + y + z) = Real.log (max (v 0) ε) - Real.log (max (u 0) ε) := by
            rw [hw]; simp only [hu, hv, s0]; norm_num; rfl
          have ki : ∀ i, i ≠ 0 → w i (e i) = Real.log (max (u i) ε) - Real.log (max (v i) ε) := by
            intro i hi
            rw [hw]; simp only [hu, hv, hs i hi]; norm_num; rfl
          have k1 : w 1 x = _ := ki 1 (by decide)
          have k2 : w 2 y = _ := ki 2 (by decide)
          have k3 : w 3 z = _ := ki 3 (by decide)
          rw [Real.log_prod fun i _ => hp v i, Real.log_prod fun i _ => hp u i, Fin.sum_univ_four, Fin.sum_univ_four, k0, k1, k2, k3]
          ring
        rw [esum, hev, enet]
        set k := kern r Ms (fun i => momOf (r i).specie.m (e i)) e
        have h1 := mul_le_mul_of_nonneg_right law hk0
        have h2 : cc * k ≤ cc * |D| := mul_le_mul_of_nonneg_left hkD hcn
        have h3 : 64 * M ^ 3 * (1 + Real.log M) * (ε * (1 + |Real.log ε|)) = cc := rfl
        rw [h3] at h1
        nlinarith)
    (by
      intro x y z hout
      by_contra hne
      have hne' : events4 r Ms f P ![x + y + z, x, y, z] ≠ 0 := fun h => hne (by rw [h, mul_zero])
      have hin := box x y z hne'
      refine hout ⟨?_, ?_, ?_⟩
      · exact (abs_of_nonneg (hin 1).1).le.trans (hin 1).2
      · exact (abs_of_nonneg (hin 2).1).le.trans (hin 2).2
      · exact (abs_of_nonneg (hin 3).1).le.trans (hin 3).2)
  rw [show (2 * R) ^ 3 * (c0 * |D|) * (ε * (1 + |Real.log ε|)) = (2 * R) ^ 3 * (cc * |D|) by rw [hcc]; ring]
  exact low

end PyBBN
