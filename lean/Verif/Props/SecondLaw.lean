import Verif.Lemmas.EventKernel
import Verif.Props.TotalsSM
/-!
# C109: the second law for all scatterings of the Standard Model

Some matrix elements of the library are negative, so the rate which one of them contributes to an event may be negative.
Specification: the rates of all of them together are not.  The kernel of every pairing is an average over the same configurations
of momenta in space, so the kernel of an event is the average of the squared amplitude of the event.  Therefore the scatterings,
evaluated by `integrate`, do not decrease the entropy, whatever the spectra are.
-/
namespace PyBBN
open MeasureTheory

/-- The four-momentum of particle `i` with energy `E i` and the momentum `x i` counted with the sign of its side. -/
def sideQ (s : Fin 4 → ℤ) (E : Fin 4 → ℝ) (x : Fin 4 → Fin 3 → ℝ) (i : Fin 4) : Fin 4 → ℝ :=
  ![E i, s i * x i 0, s i * x i 1, s i * x i 2]

theorem sideQ_mink (s : Fin 4 → ℤ) (E : Fin 4 → ℝ) (x : Fin 4 → Fin 3 → ℝ) (i j : Fin 4) :
    mink (sideQ s E x i) (sideQ s E x j) = E i * E j - s i * s j * dot3 (x i) (x j) := by
  unfold mink sideQ dot3
  simp only [Matrix.cons_val]
  ring

/-- **C109, configurations.** The vectors over which `solidAverage` averages have the lengths `p` and add up to zero, so momentum is
conserved by the four-momenta which they give; with energies on shell these four-momenta are on shell. -/
theorem C109_configurations (p E m : Fin 4 → ℝ) (s : Fin 4 → ℤ) (hs : ∀ i, s i = 1 ∨ s i = -1) (d φ : ℝ) (h : Allowed p d) :
    (∀ j, ∑ i, kVec p d φ i j = 0) ∧ (∀ i, dot3 (kVec p d φ i) (kVec p d φ i) = p i ^ 2) ∧
    ((∀ i, E i ^ 2 = p i ^ 2 + m i ^ 2) → ∀ i, mink (sideQ s E (kVec p d φ) i) (sideQ s E (kVec p d φ) i) = m i ^ 2) := by
  refine ⟨kVec_sum p d φ, kVec_length φ h, fun hE i => ?_⟩
  have hsq : (s i : ℝ) * s i = 1 := by rcases hs i with h | h <;> rw [h] <;> norm_num
  rw [sideQ_mink, kVec_length φ h i, hsq]
  linear_combination hE i

/-- **C109, one average.** `D` with any order of the indices is the average, over the same configurations, of the squared amplitude
`K1 (Q₀·Q₁)(Q₂·Q₃) + K2 m₀ m₁ (Q₂·Q₃)` with the four-momenta in this order. -/
theorem C109_directions (p E m : Fin 4 → ℝ) (K1 K2 : ℝ) (σ : Equiv.Perm (Fin 4)) (s : Fin 4 → ℤ) (hp : ∀ i, 0 ≤ p i) :
    D p E m K1 K2 σ s = solidAverage p fun x =>
      K1 * (mink (sideQ s E x (σ 0)) (sideQ s E x (σ 1)) * mink (sideQ s E x (σ 2)) (sideQ s E x (σ 3))) +
        K2 * (m (σ 0) * m (σ 1) * mink (sideQ s E x (σ 2)) (sideQ s E x (σ 3))) := by
  have nd : [σ 0, σ 1, σ 2, σ 3].Nodup := by
    have := (List.nodup_ofFn (f := fun i : Fin 4 => σ i)).mpr σ.injective
    simpa [List.ofFn_succ] using this
  set i := σ 0
  set j := σ 1
  set k := σ 2
  set l := σ 3
  obtain ⟨a1, a2, a3, a4⟩ := avg_all hp i j k l nd
  have big := (a1.lin a2 (K1 * (E i * E j * (E k * E l)) + K2 * (m i * m j * (E k * E l))) (-(K1 * (E k * E l * (s i * s j))))).lin
    (a3.lin a4 (-(K1 * (E i * E j * (s k * s l)) + K2 * (m i * m j * (s k * s l)))) (K1 * (s i * s j * (s k * s l)))) 1 1
  have e1 : (fun x => K1 * (mink (sideQ s E x i) (sideQ s E x j) * mink (sideQ s E x k) (sideQ s E x l)) +
      K2 * (m i * m j * mink (sideQ s E x k) (sideQ s E x l))) = fun x : Fin 4 → Fin 3 → ℝ =>
      1 * ((K1 * (E i * E j * (E k * E l)) + K2 * (m i * m j * (E k * E l))) * 1 +
        -(K1 * (E k * E l * (s i * s j))) * dot3 (x i) (x j)) +
      1 * (-(K1 * (E i * E j * (s k * s l)) + K2 * (m i * m j * (s k * s l))) * dot3 (x k) (x l) +
        K1 * (s i * s j * (s k * s l)) * (dot3 (x i) (x j) * dot3 (x k) (x l))) := by
    funext x
    simp only [sideQ_mink]
    ring
  rw [C63_average p E m K1 K2 σ s hp, e1, big.solid]
  have e2 : amplitude E p m s K1 K2 i j k l = fun d =>
      (fun d => (K1 * (E i * E j * (E k * E l)) + K2 * (m i * m j * (E k * E l))) * (fun _ => (1 : ℝ)) d +
        -(K1 * (E k * E l * (s i * s j))) * dot (p i) (p j) d) d +
      (fun d => -(K1 * (E i * E j * (s k * s l)) + K2 * (m i * m j * (s k * s l))) * dot (p k) (p l) d +
        K1 * (s i * s j * (s k * s l)) * (fun d => dot (p i) (p j) d * dot (p k) (p l) d) d) d := by
    funext d
    unfold amplitude fourProduct
    ring
  have hc : ∀ a b, Continuous (dot a b) := fun a b => by unfold dot; fun_prop
  have c1 := hc (p i) (p j)
  have c2 := hc (p k) (p l)
  rw [e2, pairAverage_add (by fun_prop) (by fun_prop),
    pairAverage_add (f := fun d => (K1 * (E i * E j * (E k * E l)) + K2 * (m i * m j * (E k * E l))) * (fun _ => (1 : ℝ)) d)
      (g := fun d => -(K1 * (E k * E l * (s i * s j))) * dot (p i) (p j) d) (by fun_prop) (by fun_prop),
    pairAverage_add (f := fun d => -(K1 * (E i * E j * (s k * s l)) + K2 * (m i * m j * (s k * s l))) * dot (p k) (p l) d)
      (g := fun d => K1 * (s i * s j * (s k * s l)) * (fun d => dot (p i) (p j) d * dot (p k) (p l) d) d) (by fun_prop) (by fun_prop),
    pairAverage_mul, pairAverage_mul, pairAverage_mul, pairAverage_mul]
  ring

section
variable {ι : Type*} {S : Type*} [DecidableEq S] {A : LibAttr S}

open Classical in
/-- **C109, rates.** The kernel with which all scatterings of the library feed an event `θ` of particles on shell is not
negative: the sum over the generated integrals and over the ways in which the event is one of the integral, of the sums of `D` over its
matrix elements, is not negative. -/
theorem C109_nonneg (c : LibConst) (leptons neutrinos : List S) (ok : Light A neutrinos leptons) :
    ∃ o1 o2, (neutrinoInteractions A c leptons neutrinos).mapM (Decl.integrals A) = .ok o1 ∧
      (leptonInteractions A c leptons neutrinos).mapM (Decl.integrals A) = .ok o2 ∧
      ∀ l, l = (o1.flatten ++ o2.flatten).filter (fun i => TwoTwo i) →
      ∀ (sp : S → CParticle) (GF : ℝ) (θ : Fin 4 → S) (p E : Fin 4 → ℝ),
        (∀ i, 0 ≤ p i ∧ 0 ≤ E i ∧ E i ^ 2 = p i ^ 2 + (sp (θ i)).m ^ 2) →
        0 ≤ ∑ n : Fin l.length, ∑ g : Equiv.Perm (Fin 4),
          if g 0 = 0 ∧ g 1 = 1 ∧ specieAt l[(n : ℕ)] ∘ g = θ then
            kern (evR sp θ) (viewMs ((l[(n : ℕ)].Ms.map M4.toC).map (toCM GF)) g) p E else 0 := by
  obtain ⟨o1, o2, e1, e2, hamp⟩ := library_amp (c := c) ok.inj ok.dirac leptons neutrinos
  refine ⟨o1, o2, e1, e2, ?_⟩
  intro l hl sp GF θ p E hon
  have hsound' : ∀ i ∈ o1.flatten ++ o2.flatten, Sound A (· ∈ neutrinos ++ leptons) i := by
    intro i hi
    rcases List.mem_append.mp hi with hi | hi
    · exact (library_sound c ok.inj leptons neutrinos).1 o1 e1 i hi
    · exact (library_sound c ok.inj leptons neutrinos).2 o2 e2 i hi
  have htwo : ∀ i ∈ l, TwoTwo i := by
    intro i hi
    rw [hl] at hi
    simpa using (List.mem_filter.mp hi).2
  have w := weakNonneg_avg c GF E p _ hon
  have : 0 ≤ evTotal sp (fun n : Fin l.length => specieAt l[(n : ℕ)]) (fun n => (l[(n : ℕ)].Ms.map M4.toC).map (toCM GF)) θ 0 p E := by
    rw [evTotal_eq _ GF l htwo]
    obtain ⟨⟨B1, h1, n1⟩, ⟨B2, h2, n2⟩⟩ := hamp (avgTerm_pair GF E p (fun i => (sp (θ i)).m) 1 0)
      (avgTerm_pair GF E p (fun i => (sp (θ i)).m) 0 1) (avgTerm_swap GF E p (fun i => (sp (θ i)).m) 1) θ
    rw [hl, totalAmp_twoTwo _ θ 0 _ _ _ hsound', totalAmp_append, h1, h2]
    exact add_nonneg (n1 w) (n2 w)
  refine this.trans (le_of_eq ?_)
  unfold evTotal
  refine Finset.sum_congr rfl fun n _ => Finset.sum_congr rfl fun g _ => ?_
  by_cases h : g 0 = 0 ∧ g 1 = 1 ∧ specieAt l[(n : ℕ)] ∘ g = θ
  · rw [if_pos h]; exact if_pos h
  · rw [if_neg h]; exact if_neg h

/-- The conservation laws and the entropy of a balanced list of scatterings, for the same arrays. -/
theorem list_laws (c : LibConst) (leptons neutrinos : List S) (ok : Light A neutrinos leptons) (l : List (Integral4 S))
    (hsound : ∀ i ∈ l, Sound A (· ∈ neutrinos ++ leptons) i) (htwo : ∀ i ∈ l, TwoTwo i) (hamp : BalancedList c l) :
    ∀ (sp : S → Species) (st : S → PState ι) (GF : ℝ) (p : Params) (P : S → ℝ) (r : Fin l.length → Int4 ι)
      (sched : Fin l.length → List (List ℕ)), 0 < p.aT → 0 < p.a → (∀ n : Fin l.length, Runs A sp st GF l[(n : ℕ)] (r n)) →
    (∀ n, Plain4 (r n)) → (∀ n, Covers4 (r n) (sched n)) →
    (∀ s ∈ neutrinos ++ leptons, 0 ≤ (sp s).mass ∧ 0 ≤ P s ∧ Regular (toC (sp s) (st s) p)) →
    (∀ n : Fin l.length, (r n).max1 = P (specieAt l[(n : ℕ)] 1)) → (∀ n, ∀ y ∈ ((r n).sp 0).grid, y ≤ (r n).ub) →
    (∀ n : Fin l.length, 3 * (((r n).sp 2).mass + ((r n).sp 3).mass - ((r n).sp 0).mass) * p.a ≤ P (specieAt l[(n : ℕ)] 1)) →
    ∃ (f : S → ℝ → ℝ) (J : Fin l.length → ℝ → ℝ),
      (∀ (n : Fin l.length) j q, 0 ≤ q → occAt ((r n).reaction p j).specie q = .ok (f (specieAt l[(n : ℕ)] j) q)) ∧
      (∀ n, Returns4 (r n) p (sched n) (J n)) ∧ (∀ s, Measurable (f s)) ∧ (∀ s, ∃ B, ∀ q, 0 ≤ q → |f s q| ≤ B) ∧
      (∀ (n : Fin l.length) j q, 0 ≤ q → 0 ≤ f (specieAt l[(n : ℕ)] j) q) ∧
      ((∀ n : Fin l.length, Confined ((r n).reaction p) (fun j => f (specieAt l[(n : ℕ)] j))
          fun j => P (specieAt l[(n : ℕ)] j) / p.aT) →
        (∀ q : S → ℝ → ℝ, (∀ s, Measurable (q s)) → (∀ s R, ∃ C, ∀ E, |E| ≤ R → |q s E| ≤ C) →
          (∀ i ∈ l, ∀ x y z w, x + y = z + w →
            q (specieAt i 0) x + q (specieAt i 1) y = q (specieAt i 2) z + q (specieAt i 3) w) →
          ∑ n : Fin l.length, ((r n).sp 0).dof * ∫ y in Set.Ioc 0 (P l[(n : ℕ)].particle),
            y ^ 2 * (q l[(n : ℕ)].particle (energyOf (((r n).sp 0).mass * p.a) y) * J n y) = 0) ∧
        ((∀ (n : Fin l.length) j q, 0 ≤ q → ((r n).sp j).fermion = true → f (specieAt l[(n : ℕ)] j) q ≤ 1) →
        0 ≤ p.H → 0 ≤ p.x →
        ∃ C, 0 ≤ C ∧ ∀ ε, 0 < ε → ε ≤ 1 → -(C * (ε * (1 + |Real.log ε|))) ≤
          ∑ n : Fin l.length, ((r n).sp 0).dof * ∫ y in Set.Ioc 0 (P l[(n : ℕ)].particle),
            y ^ 2 * ((Real.log (max (1 - ((r n).sp 0).eta * f l[(n : ℕ)].particle (y / p.aT)) ε) -
              Real.log (max (f l[(n : ℕ)].particle (y / p.aT)) ε)) * J n y))) := by
  intro sp st GF p P r sched haT ha hrun hpl hcov hspec hmax hwhole hthr
  obtain ⟨f, J, hf, hJ, hr, hd, hfm, hfb, hbal, hnon, htot⟩ := list_scatterings (ι := ι) c leptons neutrinos ok l hsound htwo hamp
    sp st GF p P r sched haT ha hrun hpl hcov hspec hmax hwhole hthr
  refine ⟨f, J, hf, hJ, hfm, hfb, fun n j q hq => (hd n).nonneg j q hq, fun hc => ⟨?_, fun hpauli hH hx => ?_⟩⟩
  · intro q h1 h2 h3
    rw [htot q h1 h2, events_total (P := fun s => P s / p.aT) (fun n : Fin l.length => specieAt l[(n : ℕ)]) _ hbal hd
      (fun n => by rw [← hr]; exact hc n) (fun s E => q s (p.aT * E))
      (fun s => (h1 s).comp (measurable_const_mul _)) (fun s R => ?_)
      (fun n x y z w h => h3 _ (List.getElem_mem n.2) _ _ _ _ (by rw [← mul_add, h, mul_add])), mul_zero, mul_zero]
    obtain ⟨C, hC⟩ := h2 s (p.aT * R)
    refine ⟨C, fun E hE => hC _ ?_⟩
    rw [abs_mul, abs_of_pos haT]
    exact mul_le_mul_of_nonneg_left hE haT.le
  have hnon' := hnon fun E p m => weakNonneg_avg c GF E p m
  have hsp : ∀ (n : Fin l.length) j, (r n).sp j = sp (specieAt l[(n : ℕ)] j) := fun n j => ((hrun n).sp_eq j).1
  have hp0 : ∀ n : Fin l.length, specieAt l[(n : ℕ)] 0 = l[(n : ℕ)].particle := fun n =>
    (hsound _ (List.getElem_mem n.2)).particle
  choose B hB using hfb
  set M : ℝ := 1 + ∑ n : Fin l.length, ∑ j : Fin 4, |B (specieAt l[(n : ℕ)] j)| with hM
  have hM1 : 1 ≤ M := by
    rw [hM]
    have : 0 ≤ ∑ n : Fin l.length, ∑ j : Fin 4, |B (specieAt l[(n : ℕ)] j)| :=
      Finset.sum_nonneg fun _ _ => Finset.sum_nonneg fun _ _ => abs_nonneg _
    linarith
  have hfM : ∀ (n : Fin l.length) j q, 0 ≤ q → 0 ≤ f (specieAt l[(n : ℕ)] j) q ∧ 1 + f (specieAt l[(n : ℕ)] j) q ≤ M := by
    intro n j q hq
    refine ⟨(hd n).nonneg j q hq, ?_⟩
    have h1 := (le_abs_self _).trans ((hB (specieAt l[(n : ℕ)] j) q hq).trans (le_abs_self _))
    have h2 : |B (specieAt l[(n : ℕ)] j)| ≤ ∑ j : Fin 4, |B (specieAt l[(n : ℕ)] j)| :=
      Finset.single_le_sum (f := fun j : Fin 4 => |B (specieAt l[(n : ℕ)] j)|) (fun _ _ => abs_nonneg _) (Finset.mem_univ j)
    have h3 : ∑ j : Fin 4, |B (specieAt l[(n : ℕ)] j)| ≤ ∑ n : Fin l.length, ∑ j : Fin 4, |B (specieAt l[(n : ℕ)] j)| :=
      Finset.single_le_sum (f := fun n : Fin l.length => ∑ j : Fin 4, |B (specieAt l[(n : ℕ)] j)|)
        (fun _ _ => Finset.sum_nonneg fun _ _ => abs_nonneg _) (Finset.mem_univ n)
    linarith
  obtain ⟨C, hC, hlaw⟩ := events_law (P := fun s => P s / p.aT) (fun n : Fin l.length => specieAt l[(n : ℕ)]) _ hbal hnon' hd
    (fun n => by rw [← hr]; exact hc n) hfm (fun s => ⟨B s, hB s⟩) M hM1 (by
      intro n j q hq
      obtain ⟨h1, h2⟩ := hfM n j q hq
      refine ⟨h1, by linarith, ?_⟩
      change 0 ≤ 1 - ((sp (specieAt l[(n : ℕ)] j)).eta : ℝ) * f (specieAt l[(n : ℕ)] j) q ∧
        1 - ((sp (specieAt l[(n : ℕ)] j)).eta : ℝ) * f (specieAt l[(n : ℕ)] j) q ≤ M
      have h3 := hpauli n j q hq
      rw [hsp] at h3
      unfold Species.eta
      cases hfer : (sp (specieAt l[(n : ℕ)] j)).fermion with
      | true =>
        have h4 := h3 hfer
        simp only [if_true]
        push_cast
        constructor <;> linarith
      | false =>
        simp only [Bool.false_eq_true, if_false]
        push_cast
        constructor <;> linarith)
  have hcom : 0 ≤ common4 GF p := by
    unfold common4
    have : 0 ≤ (if p.log then 1 else p.x) := by split_ifs <;> [exact zero_le_one; exact hx]
    have h5 : 0 ≤ p.aT / p.a := (div_pos haT ha).le
    positivity
  refine ⟨2 * (p.aT ^ 3 * common4 GF p * C), by positivity, fun ε hε hε1 => ?_⟩
  obtain ⟨hqm, hqb, hlow⟩ := hlaw ε hε hε1
  have htot' := htot (fun s E => floorWeight (fun s => toC (sp s) (st s) p) f ε s (E / p.aT))
    (fun s => (hqm s).comp (measurable_id.div_const _)) (by
      intro s R
      obtain ⟨D, hD⟩ := hqb s (R / p.aT)
      refine ⟨D, fun E hE => hD _ ?_⟩
      rw [abs_div, abs_of_pos haT]
      exact div_le_div_of_nonneg_right hE haT.le)
  have e : ∀ n : Fin l.length, ((r n).sp 0).dof * ∫ y in Set.Ioc 0 (P l[(n : ℕ)].particle),
      y ^ 2 * ((Real.log (max (1 - ((r n).sp 0).eta * f l[(n : ℕ)].particle (y / p.aT)) ε) -
        Real.log (max (f l[(n : ℕ)].particle (y / p.aT)) ε)) * J n y) =
      ((r n).sp 0).dof * ∫ y in Set.Ioc 0 (P l[(n : ℕ)].particle), y ^ 2 *
        (floorWeight (fun s => toC (sp s) (st s) p) f ε l[(n : ℕ)].particle (energyOf (((r n).sp 0).mass * p.a) y / p.aT) * J n y) := by
    intro n
    congr 1
    refine setIntegral_congr_fun measurableSet_Ioc fun y hy => ?_
    have hy0 : 0 ≤ y / p.aT := div_nonneg hy.1.le haT.le
    have e1 : energyOf (((r n).sp 0).mass * p.a) y / p.aT = energyOf (((r n).sp 0).mass * p.a / p.aT) (y / p.aT) := by
      rw [energyOf_div _ y p.aT haT]; field_simp
    have e2 : ((r n).sp 0) = sp l[(n : ℕ)].particle := by rw [hsp, hp0]
    unfold floorWeight
    rw [e1, e2]
    change _ = y ^ 2 * ((Real.log (max (1 - ((sp l[(n : ℕ)].particle).eta : ℝ) * f l[(n : ℕ)].particle
      (momOf ((sp l[(n : ℕ)].particle).mass * p.a / p.aT) (energyOf ((sp l[(n : ℕ)].particle).mass * p.a / p.aT) (y / p.aT)))) ε) -
      Real.log (max (f l[(n : ℕ)].particle
      (momOf ((sp l[(n : ℕ)].particle).mass * p.a / p.aT) (energyOf ((sp l[(n : ℕ)].particle).mass * p.a / p.aT) (y / p.aT)))) ε)) * J n y)
    rw [momOf_energyOf _ _ hy0]
  rw [Finset.sum_congr rfl fun n _ => e n, htot']
  have hdiv : ∀ a : ℝ, p.aT * a / p.aT = a := fun a => by field_simp
  simp only [hdiv]
  have hk : 0 ≤ p.aT ^ 3 * common4 GF p := by positivity
  have := mul_le_mul_of_nonneg_left hlow hk
  linarith

/-- The conservation laws and the entropy of all scatterings, for the same arrays. -/
theorem sm_laws (c : LibConst) (leptons neutrinos : List S) (ok : Light A neutrinos leptons) :
    ∃ o1 o2, (neutrinoInteractions A c leptons neutrinos).mapM (Decl.integrals A) = .ok o1 ∧
      (leptonInteractions A c leptons neutrinos).mapM (Decl.integrals A) = .ok o2 ∧
      ∀ l, l = (o1.flatten ++ o2.flatten).filter (fun i => TwoTwo i) →
      ∀ (sp : S → Species) (st : S → PState ι) (GF : ℝ) (p : Params) (P : S → ℝ) (r : Fin l.length → Int4 ι)
        (sched : Fin l.length → List (List ℕ)), 0 < p.aT → 0 < p.a → (∀ n : Fin l.length, Runs A sp st GF l[(n : ℕ)] (r n)) →
      (∀ n, Plain4 (r n)) → (∀ n, Covers4 (r n) (sched n)) →
      (∀ s ∈ neutrinos ++ leptons, 0 ≤ (sp s).mass ∧ 0 ≤ P s ∧ Regular (toC (sp s) (st s) p)) →
      (∀ n : Fin l.length, (r n).max1 = P (specieAt l[(n : ℕ)] 1)) → (∀ n, ∀ y ∈ ((r n).sp 0).grid, y ≤ (r n).ub) →
      (∀ n : Fin l.length, 3 * (((r n).sp 2).mass + ((r n).sp 3).mass - ((r n).sp 0).mass) * p.a ≤ P (specieAt l[(n : ℕ)] 1)) →
      ∃ (f : S → ℝ → ℝ) (J : Fin l.length → ℝ → ℝ),
        (∀ (n : Fin l.length) j q, 0 ≤ q → occAt ((r n).reaction p j).specie q = .ok (f (specieAt l[(n : ℕ)] j) q)) ∧
        (∀ n, Returns4 (r n) p (sched n) (J n)) ∧ (∀ s, Measurable (f s)) ∧ (∀ s, ∃ B, ∀ q, 0 ≤ q → |f s q| ≤ B) ∧
        (∀ (n : Fin l.length) j q, 0 ≤ q → 0 ≤ f (specieAt l[(n : ℕ)] j) q) ∧
        ((∀ n : Fin l.length, Confined ((r n).reaction p) (fun j => f (specieAt l[(n : ℕ)] j))
            fun j => P (specieAt l[(n : ℕ)] j) / p.aT) →
          (∀ q : S → ℝ → ℝ, (∀ s, Measurable (q s)) → (∀ s R, ∃ C, ∀ E, |E| ≤ R → |q s E| ≤ C) →
            (∀ i ∈ l, ∀ x y z w, x + y = z + w →
              q (specieAt i 0) x + q (specieAt i 1) y = q (specieAt i 2) z + q (specieAt i 3) w) →
            ∑ n : Fin l.length, ((r n).sp 0).dof * ∫ y in Set.Ioc 0 (P l[(n : ℕ)].particle),
              y ^ 2 * (q l[(n : ℕ)].particle (energyOf (((r n).sp 0).mass * p.a) y) * J n y) = 0) ∧
          ((∀ (n : Fin l.length) j q, 0 ≤ q → ((r n).sp j).fermion = true → f (specieAt l[(n : ℕ)] j) q ≤ 1) →
          0 ≤ p.H → 0 ≤ p.x →
          ∃ C, 0 ≤ C ∧ ∀ ε, 0 < ε → ε ≤ 1 → -(C * (ε * (1 + |Real.log ε|))) ≤
            ∑ n : Fin l.length, ((r n).sp 0).dof * ∫ y in Set.Ioc 0 (P l[(n : ℕ)].particle),
              y ^ 2 * ((Real.log (max (1 - ((r n).sp 0).eta * f l[(n : ℕ)].particle (y / p.aT)) ε) -
                Real.log (max (f l[(n : ℕ)].particle (y / p.aT)) ε)) * J n y))) := by
  obtain ⟨o1, o2, e1, e2, hamp⟩ := library_amp (c := c) ok.inj ok.dirac leptons neutrinos
  refine ⟨o1, o2, e1, e2, ?_⟩
  intro l hl
  exact list_laws c leptons neutrinos ok l (twoTwo_sound c ok e1 e2 l hl).1 (twoTwo_sound c ok e1 e2 l hl).2
    (twoTwo_balanced c ok e1 e2 hamp l hl)

/-- **C109.** All scatterings `a + b → c + d` generated from `neutrino_interactions` and `lepton_interactions`, evaluated by
`integrate`.  If no occupation number of a fermion exceeds one and no event is inside the grids of one side of its reaction only,
their arrays, which are samples of `J`, do not decrease the entropy: `Σ g ∫ y² log((1 ∓ f)/f) J dy ≥ 0`, where `f` and `1 ∓ f` below `ε`
are replaced with `ε` (spectra vanish at the ends of the grids) at a cost which vanishes with `ε`. -/
theorem C109_entropy (c : LibConst) (leptons neutrinos : List S) (ok : Light A neutrinos leptons) :
    ∃ o1 o2, (neutrinoInteractions A c leptons neutrinos).mapM (Decl.integrals A) = .ok o1 ∧
      (leptonInteractions A c leptons neutrinos).mapM (Decl.integrals A) = .ok o2 ∧
      ∀ l, l = (o1.flatten ++ o2.flatten).filter (fun i => TwoTwo i) →
      ∀ (sp : S → Species) (st : S → PState ι) (GF : ℝ) (p : Params) (P : S → ℝ) (r : Fin l.length → Int4 ι)
        (sched : Fin l.length → List (List ℕ)), 0 < p.aT → 0 < p.a → (∀ n : Fin l.length, Runs A sp st GF l[(n : ℕ)] (r n)) →
      (∀ n, Plain4 (r n)) → (∀ n, Covers4 (r n) (sched n)) →
      (∀ s ∈ neutrinos ++ leptons, 0 ≤ (sp s).mass ∧ 0 ≤ P s ∧ Regular (toC (sp s) (st s) p)) →
      (∀ n : Fin l.length, (r n).max1 = P (specieAt l[(n : ℕ)] 1)) → (∀ n, ∀ y ∈ ((r n).sp 0).grid, y ≤ (r n).ub) →
      (∀ n : Fin l.length, 3 * (((r n).sp 2).mass + ((r n).sp 3).mass - ((r n).sp 0).mass) * p.a ≤ P (specieAt l[(n : ℕ)] 1)) →
      ∃ (f : S → ℝ → ℝ) (J : Fin l.length → ℝ → ℝ),
        (∀ (n : Fin l.length) j q, 0 ≤ q → occAt ((r n).reaction p j).specie q = .ok (f (specieAt l[(n : ℕ)] j) q)) ∧
        (∀ n, Returns4 (r n) p (sched n) (J n)) ∧
        ((∀ n : Fin l.length, Confined ((r n).reaction p) (fun j => f (specieAt l[(n : ℕ)] j))
            fun j => P (specieAt l[(n : ℕ)] j) / p.aT) →
          (∀ (n : Fin l.length) j q, 0 ≤ q → ((r n).sp j).fermion = true → f (specieAt l[(n : ℕ)] j) q ≤ 1) →
          0 ≤ p.H → 0 ≤ p.x →
          ∃ C, 0 ≤ C ∧ ∀ ε, 0 < ε → ε ≤ 1 → -(C * (ε * (1 + |Real.log ε|))) ≤
            ∑ n : Fin l.length, ((r n).sp 0).dof * ∫ y in Set.Ioc 0 (P l[(n : ℕ)].particle),
              y ^ 2 * ((Real.log (max (1 - ((r n).sp 0).eta * f l[(n : ℕ)].particle (y / p.aT)) ε) -
                Real.log (max (f l[(n : ℕ)].particle (y / p.aT)) ε)) * J n y)) := by
  obtain ⟨o1, o2, e1, e2, h⟩ := sm_laws (ι := ι) c leptons neutrinos ok
  refine ⟨o1, o2, e1, e2, ?_⟩
  intro l hl sp st GF p P r sched haT ha hrun hpl hcov hspec hmax hwhole hthr
  obtain ⟨f, J, hf, hJ, -, -, -, hc⟩ := h l hl sp st GF p P r sched haT ha hrun hpl hcov hspec hmax hwhole hthr
  exact ⟨f, J, hf, hJ, fun h => (hc h).2⟩

end

/-- **C109, Pauli.** The C++ code reads no occupation number of a fermion above one when no stored one is. -/
theorem C109_pauli (s : CParticle) (q v : ℝ) (heta : s.eta = 1) (hT : 0 < s.T) (hne : s.grid ≠ []) (hs : s.grid.Pairwise (· < ·))
    (hlen : s.dist.length = s.grid.length) (hg : ∀ x ∈ s.grid, 0 ≤ x) (hd : ∀ d ∈ s.dist, 0 ≤ d ∧ d ≤ 1)
    (h : occAt s q = .ok v) : v ≤ 1 := by
  have hdn : s.dist ≠ [] := by
    intro h; apply hne; rw [h] at hlen; exact List.length_eq_zero_iff.mp hlen.symm
  have fd : ∀ x : ℝ, 1 / (Real.exp x + ((1 : ℤ) : ℝ)) ≤ 1 := by
    intro x
    have := Real.exp_pos x
    rw [div_le_one (by push_cast; positivity)]; push_cast; linarith
  unfold occAt at h
  rw [heta] at h
  cases hin : s.inEq with
  | true =>
    rw [hin] at h
    unfold distributionInterpolation at h
    rw [if_pos rfl] at h
    rw [← Except.ok.inj h]
    exact fd _
  | false =>
    rw [hin] at h
    rcases grid_cases s.grid q hne hs with h1 | h1 | ⟨i, hi, rfl⟩ | ⟨i, hi, h1, h2⟩
    · rw [C09_above _ _ _ _ _ _ hne hlen h1 hdn] at h
      rw [← Except.ok.inj h]
      have a := hd _ (List.getLast_mem hdn)
      have b : Real.exp ((energy (s.grid.getLast hne) s.m - energy q s.m) / s.T) ≤ 1 := by
        rw [Real.exp_le_one_iff]
        apply div_nonpos_of_nonpos_of_nonneg _ hT.le
        linarith [energy_mono (m := s.m) (hg _ (List.getLast_mem hne)) (h1 _ (List.getLast_mem hne)).le]
      exact mul_le_one₀ a.2 (Real.exp_nonneg _) b
    · rw [C09_below_raises _ _ _ _ _ _ hne h1] at h
      exact absurd h (by simp)
    · rw [C09_exact_on_grid _ _ _ _ _ hs hlen i hi] at h
      rw [← Except.ok.inj h]
      exact (hd _ (List.getElem_mem _)).2
    · rw [lookup_between _ _ _ _ _ _ hs hlen i hi h1 h2] at h
      rw [← Except.ok.inj h]
      unfold interpCell
      dsimp only
      split_ifs
      · exact zero_le_one
      · exact fd _
      · exact zero_le_one
      · exact zero_le_one

section Example
noncomputable def lawSp (s : Fin 5) : Species :=
  { name := "X", mass := termsAttr.mass s, dof := 2, fermion := true, thermalDyn := false, Q := 0, grid := [0, 1, 1000],
    fastDecay := false, lifetime := 0 }
noncomputable def lawSt (s : Fin 5) : PState ℕ :=
  { T := 1, aT := 1, Tdec := 2, dist := ![[0, 0, 0], [1/3, 0, 0], [1/5, 0, 0], [1/2, 0, 0], [1/4, 0, 0]] s, coll := [],
    integrals := [], tDec := 0, decayed := false, density := 0, histDist := [], histColl := [], histT := [],
    histDensity := [] }
noncomputable def lawP : Params :=
  { log := true, m := 1, T := 1, a := 1, aIni := 1, x := 1, y := none, aT := 1, t := 1, H := 1, rho := none,
    S := none, Neff := 3, dy := 1, dx := 1, h := 1 }
noncomputable def lawRun (i : Integral4 (Fin 5)) : Int4 ℕ :=
  { sp := fun j => lawSp (specieAt i j), st := fun j => lawSt (specieAt i j), side := ![-1, -1, 1, 1],
    Ms := i.Ms.map M4.toC, GF := 1, majorana := false, mult := multOf termsAttr i, kind := .full, neglect := false,
    min1 := 0, max1 := 1000, min2 := 0, max2 := 1000, max3 := 1000, ub := 1000, creationFast := false, br := none, num := 0,
    total := fun _ => 0 }

/-- Electrons, muons and two neutrinos with spectra far from equilibrium, which end at momentum 1, on grids up to 1000: whatever
scatterings of them are evaluated, all hypotheses of the theorems about them are met. -/
theorem law_ready (l : List (Integral4 (Fin 5))) (hsound : ∀ i ∈ l, Sound termsAttr (· ∈ [1, 2] ++ [4, 3]) i ∧ TwoTwo i) :
    (∀ n : Fin l.length, Runs termsAttr lawSp lawSt 1 l[(n : ℕ)] (lawRun l[(n : ℕ)])) ∧
    (∀ n : Fin l.length, Plain4 (lawRun l[(n : ℕ)])) ∧
    (∀ s ∈ ([1, 2] ++ [4, 3] : List (Fin 5)), 0 ≤ (lawSp s).mass ∧ (0 : ℝ) ≤ 1000 ∧ Regular (toC (lawSp s) (lawSt s) lawP)) ∧
    (∀ n : Fin l.length, ∀ y ∈ ((lawRun l[(n : ℕ)]).sp 0).grid, y ≤ (lawRun l[(n : ℕ)]).ub) ∧
    (∀ n : Fin l.length, 3 * (((lawRun l[(n : ℕ)]).sp 2).mass + ((lawRun l[(n : ℕ)]).sp 3).mass -
      ((lawRun l[(n : ℕ)]).sp 0).mass) * lawP.a ≤ 1000) ∧
    ∀ f : Fin 5 → ℝ → ℝ, (∀ (n : Fin l.length) j q, 0 ≤ q →
        occAt ((lawRun l[(n : ℕ)]).reaction lawP j).specie q = .ok (f (specieAt l[(n : ℕ)] j) q)) →
      (∀ n : Fin l.length, Confined ((lawRun l[(n : ℕ)]).reaction lawP) (fun j => f (specieAt l[(n : ℕ)] j))
        fun _ => 1000 / lawP.aT) ∧
      ∀ (n : Fin l.length) j q, 0 ≤ q → ((lawRun l[(n : ℕ)]).sp j).fermion = true → f (specieAt l[(n : ℕ)] j) q ≤ 1 := by
  have hm : ∀ n : Fin l.length, l[(n : ℕ)] ∈ l := fun n => List.getElem_mem n.2
  have mass : ∀ s : Fin 5, s ∈ ([1, 2] ++ [4, 3] : List (Fin 5)) → 0 ≤ (lawSp s).mass ∧ (lawSp s).mass ≤ 105 := by
    intro s hs
    simp only [List.cons_append, List.nil_append, List.mem_cons, List.not_mem_nil, or_false] at hs
    rcases hs with rfl | rfl | rfl | rfl
    · change (0 : ℝ) ≤ 0 ∧ (0 : ℝ) ≤ 105; norm_num
    · change (0 : ℝ) ≤ 0 ∧ (0 : ℝ) ≤ 105; norm_num
    · change (0 : ℝ) ≤ 1 / 2 ∧ (1 / 2 : ℝ) ≤ 105; norm_num
    · change (0 : ℝ) ≤ 105 ∧ (105 : ℝ) ≤ 105; norm_num
  have hlen : ∀ s, (lawSt s).dist.length = 3 := by intro s; fin_cases s <;> rfl
  have zero : ∀ s i, 1 ≤ i → ∀ h : i < (lawSt s).dist.length, (lawSt s).dist[i] = 0 := by
    intro s i hi h
    have h' : i < 3 := by rw [← hlen s]; exact h
    have : i = 1 ∨ i = 2 := by omega
    fin_cases s <;> rcases this with rfl | rfl <;> rfl
  have reg : ∀ s, Regular (toC (lawSp s) (lawSt s) lawP) := by
    intro s
    refine regular_toC _ _ _ (by norm_num [lawP]) [1, 1000] ?_ rfl (by norm_num [lawSp, StrictInc]) (hlen s)
      (by norm_num [lawSt]) ?_
    · simp [inEq, lawSp]
    · fin_cases s <;> norm_num [lawSt, lawSp]
  have hmul : ∀ n : Fin l.length, multOf termsAttr l[(n : ℕ)] = 1 := fun n =>
    (hsound _ (hm n)).1.mult (hsound _ (hm n)).2 termsAttr_light.name
  refine ⟨?_, ?_, ?_, ?_, ?_, ?_⟩
  · intro n
    obtain ⟨h1, h2⟩ := hsound _ (hm n)
    refine ⟨fun j => ?_, rfl, rfl, rfl, rfl⟩
    have hj : (j : ℕ) < l[(n : ℕ)].reaction.length := by rw [h1.four]; exact j.2
    have hx := List.getElem?_eq_getElem hj
    have hs : specieAt l[(n : ℕ)] j = (l[(n : ℕ)].reaction[(j : ℕ)]).specie := by unfold specieAt; rw [hx]; rfl
    refine ⟨_, hx, congrArg lawSp hs, congrArg lawSt hs, ?_⟩
    have h5 : (l[(n : ℕ)].reaction.map (·.side))[(j : ℕ)]? = some (l[(n : ℕ)].reaction[(j : ℕ)]).side := by
      rw [List.getElem?_map, hx]; rfl
    rw [h2] at h5
    fin_cases j <;> exact Option.some.inj h5
  · exact fun n =>
      { kind := Or.inl rfl, slow := rfl, active := rfl, min1 := rfl, grid := List.cons_ne_nil _ _
        nonneg := by norm_num [lawRun, lawSp]
        inc := by norm_num [lawRun, lawSp, StrictInc]
        stored := hlen _
        dof := by norm_num [lawRun, lawSp, dofFactor]
        mult := by
          change multOf termsAttr l[(n : ℕ)] ≠ 0
          rw [hmul n]; exact one_ne_zero }
  · exact fun s hs => ⟨(mass s hs).1, by norm_num, reg s⟩
  · intro n
    change ∀ y ∈ [(0 : ℝ), 1, 1000], y ≤ 1000
    norm_num
  · intro n
    change 3 * ((lawSp (specieAt l[(n : ℕ)] 2)).mass + (lawSp (specieAt l[(n : ℕ)] 3)).mass -
      (lawSp (specieAt l[(n : ℕ)] 0)).mass) * 1 ≤ 1000
    have a := fun j => mass _ ((hsound _ (hm n)).1.mem j)
    linarith [(a 2).2, (a 3).2, (a 0).1]
  intro f hf
  refine ⟨?_, ?_⟩
  swap
  · intro n j q hq _
    have h1 := hf n j q hq
    have hd : ∀ v ∈ (lawSt (specieAt l[(n : ℕ)] j)).dist, 0 ≤ v ∧ v ≤ 1 := by
      generalize specieAt l[(n : ℕ)] j = s
      fin_cases s <;> norm_num [lawSt]
    refine C109_pauli _ q _ (by norm_num [lawRun, Int4.reaction, toC, lawSp, Species.eta]) (by change (0 : ℝ) < 1 / 1; norm_num)
      (List.cons_ne_nil _ _) (by
        change [(0 : ℝ) / 1, 1 / 1, 1000 / 1].Pairwise (· < ·)
        norm_num) (hlen _) (by
        change ∀ x ∈ [(0 : ℝ) / 1, 1 / 1, 1000 / 1], 0 ≤ x
        norm_num) (fun v hv => hd v hv) h1
  intro n
  have a := fun j => mass _ ((hsound _ (hm n)).1.mem j)
  have hmass : ∀ j, ((lawRun l[(n : ℕ)]).reaction lawP j).specie.m = (lawSp (specieAt l[(n : ℕ)] j)).mass := by
    intro j
    change (lawSp (specieAt l[(n : ℕ)] j)).mass * 1 / 1 = _
    rw [mul_one, div_one]
  have ends : ∀ j q, 1 < q → f (specieAt l[(n : ℕ)] j) q = 0 := by
    intro j q hq
    have h1 := hf n j q (by linarith)
    have h2 := C107_spectrum_ends ((lawRun l[(n : ℕ)]).reaction lawP j).specie
      (by change inEq (lawSp _) (lawSt _) = false; simp [inEq, lawSp]) (List.cons_ne_nil _ _)
      (by
        change [(0 : ℝ) / 1, 1 / 1, 1000 / 1].Pairwise (· < ·)
        norm_num)
      (hlen _) 1 (by change 1 < 3; norm_num)
      (fun i hi h => zero (specieAt l[(n : ℕ)] j) i hi h)
      q (by change (1 : ℝ) / 1 ≤ q; linarith)
    exact Except.ok.inj (h1.symm.trans h2)
  have e1 : ∀ m : ℝ, 0 ≤ m → m ≤ 105 → energyOf m 1 ≤ 106 := by
    intro m h0 h1
    unfold energyOf
    rw [Real.sqrt_le_left (by norm_num)]; nlinarith
  have e2 : ∀ m : ℝ, (1000 : ℝ) ≤ energyOf m 1000 := by
    intro m
    unfold energyOf; apply Real.le_sqrt_of_sq_le; nlinarith [sq_nonneg m]
  refine C104_confined ⟨rfl, rfl, rfl, rfl⟩ (fun j => by rw [hmass]; exact (a j).1) (fun _ => 1) (fun _ => by norm_num) ends ?_ ?_ <;>
  intro j
  · rw [hmass, hmass, hmass, hmass]
    have : (1000 : ℝ) / lawP.aT = 1000 := by norm_num [lawP]
    rw [this]
    linarith [e1 _ (a 0).1 (a 0).2, e1 _ (a 1).1 (a 1).2, (a (mate j)).1, e2 (lawSp (specieAt l[(n : ℕ)] j)).mass]
  · rw [hmass, hmass, hmass, hmass]
    have : (1000 : ℝ) / lawP.aT = 1000 := by norm_num [lawP]
    rw [this]
    linarith [e1 _ (a 2).1 (a 2).2, e1 _ (a 3).1 (a 3).2, (a (mate j)).1, e2 (lawSp (specieAt l[(n : ℕ)] j)).mass]

/-- All scatterings of these electrons, muons and two neutrinos. -/
example (c : LibConst) : ∃ o1 o2, (neutrinoInteractions termsAttr c [4, 3] [1, 2]).mapM (Decl.integrals termsAttr) = .ok o1 ∧
    (leptonInteractions termsAttr c [4, 3] [1, 2]).mapM (Decl.integrals termsAttr) = .ok o2 ∧
    ∀ l, l = (o1.flatten ++ o2.flatten).filter (fun i => TwoTwo i) → ∃ J : Fin l.length → ℝ → ℝ,
      (∀ n : Fin l.length, Returns4 (lawRun l[(n : ℕ)]) lawP (oneThread4 (lawRun l[(n : ℕ)])) (J n)) ∧
      ∃ (f : Fin 5 → ℝ → ℝ) (C : ℝ), 0 ≤ C ∧ ∀ ε, 0 < ε → ε ≤ 1 → -(C * (ε * (1 + |Real.log ε|))) ≤
        ∑ n : Fin l.length, (2 : ℝ) * ∫ y in Set.Ioc 0 1000, y ^ 2 * ((Real.log (max (1 - f l[(n : ℕ)].particle y) ε) -
          Real.log (max (f l[(n : ℕ)].particle y) ε)) * J n y) := by
  obtain ⟨o1, o2, e1, e2, h⟩ := C109_entropy (ι := ℕ) c [4, 3] [1, 2] termsAttr_light
  refine ⟨o1, o2, e1, e2, fun l hl => ?_⟩
  have hsound : ∀ i ∈ l, Sound termsAttr (· ∈ [1, 2] ++ [4, 3]) i ∧ TwoTwo i := by
    intro i hi
    rw [hl] at hi
    obtain ⟨hi, ht⟩ := List.mem_filter.mp hi
    refine ⟨?_, by simpa using ht⟩
    rcases List.mem_append.mp hi with hi | hi
    · exact (library_sound c termsAttr_light.inj [4, 3] [1, 2]).1 o1 e1 i hi
    · exact (library_sound c termsAttr_light.inj [4, 3] [1, 2]).2 o2 e2 i hi
  obtain ⟨h1, h2, h3, h4, h5, h6⟩ := law_ready l hsound
  obtain ⟨f, J, hf, hJ, htot⟩ := h l hl lawSp lawSt 1 lawP (fun _ => 1000) (fun n => lawRun l[(n : ℕ)])
    (fun n => oneThread4 (lawRun l[(n : ℕ)])) (by norm_num [lawP]) (by norm_num [lawP]) h1 h2
    (fun n => covers4_oneThread _) h3 (fun n => rfl) h4 h5
  refine ⟨J, hJ, f, ?_⟩
  obtain ⟨C, hC, hlow⟩ := htot (h6 f hf).1 (h6 f hf).2 (by norm_num [lawP]) (by norm_num [lawP])
  refine ⟨C, hC, fun ε h1 h2 => (hlow ε h1 h2).trans (le_of_eq ?_)⟩
  refine Finset.sum_congr rfl fun n _ => ?_
  have e : ((lawRun l[(n : ℕ)]).sp 0).eta = 1 := rfl
  have e' : lawP.aT = 1 := rfl
  rw [e, e']
  simp only [Int.cast_one, one_mul, div_one]
  rfl

/-- Four particles at momenta 3, 4, 5 and 6: such events exist. -/
example : Allowed ![3, 4, 5, 6] 2 ∧ ∀ K1 K2 : ℝ, D ![3, 4, 5, 6] ![5, 5, 5, 6] ![4, 3, 0, 0] K1 K2 (Equiv.swap 1 2) ![-1, -1, 1, 1] =
    solidAverage ![3, 4, 5, 6] fun x =>
      K1 * (mink (sideQ ![-1, -1, 1, 1] ![5, 5, 5, 6] x 0) (sideQ ![-1, -1, 1, 1] ![5, 5, 5, 6] x 2) *
        mink (sideQ ![-1, -1, 1, 1] ![5, 5, 5, 6] x 1) (sideQ ![-1, -1, 1, 1] ![5, 5, 5, 6] x 3)) +
      K2 * (4 * 0 * mink (sideQ ![-1, -1, 1, 1] ![5, 5, 5, 6] x 1) (sideQ ![-1, -1, 1, 1] ![5, 5, 5, 6] x 3)) := by
  refine ⟨⟨by norm_num, ⟨abs_le.mpr ⟨by simp; norm_num, by simp; norm_num⟩, by simp; norm_num⟩, abs_le.mpr ⟨by simp; norm_num, by simp; norm_num⟩,
    by simp; norm_num⟩, fun K1 K2 => ?_⟩
  have := C109_directions ![3, 4, 5, 6] ![5, 5, 5, 6] ![4, 3, 0, 0] K1 K2 (Equiv.swap 1 2) ![-1, -1, 1, 1] (by
    intro i; fin_cases i <;> norm_num)
  have e0 : (Equiv.swap (1 : Fin 4) 2) 0 = 0 := by decide
  have e1 : (Equiv.swap (1 : Fin 4) 2) 1 = 2 := by decide
  have e2 : (Equiv.swap (1 : Fin 4) 2) 2 = 1 := by decide
  have e3 : (Equiv.swap (1 : Fin 4) 2) 3 = 3 := by decide
  rw [e0, e1, e2, e3] at this
  exact this

/-- The library with two neutrinos, electrons and muons meets the hypotheses of `C109_nonneg`. -/
example (c : LibConst) := C109_nonneg c [4, 3] [1, 2] termsAttr_light
end Example

end PyBBN
