import Verif.Model.SumRules
import Verif.Props.SecondLaw
/-!
# C112: elastic processes conserve the number of every species

The project's own sum rules: of the integrals of `neutrino_interactions` only those are kept which have the same species on
both sides, and the number of each neutrino should not change.  Specification: `Σ g ∫ y² J dy = 0` over the integrals of one
species, for every species, whatever the spectra are; what is dropped are the annihilations `a + a → b + b`.
-/
namespace PyBBN
open MeasureTheory

variable {ι : Type*}

section
variable {S : Type*} [DecidableEq S] {A : LibAttr S}

/-- The same two things. -/
def SamePair {T : Type*} (x y z w : T) : Prop := x = z ∧ y = w ∨ x = w ∧ y = z

theorem samePair_perm (x y z w : S) : [x, y].Perm [z, w] ↔ SamePair x y z w := by
  unfold SamePair
  constructor
  · intro h
    have := Multiset.coe_eq_coe.mpr h
    have h2 : ({x, y} : Multiset S) = {z, w} := this
    rw [show ({x, y} : Multiset S) = x ::ₘ {y} from rfl, show ({z, w} : Multiset S) = z ::ₘ {w} from rfl,
      Multiset.cons_eq_cons] at h2
    rcases h2 with ⟨h1, h2⟩ | ⟨-, cs, h1, h2⟩
    · exact Or.inl ⟨h1, Multiset.singleton_inj.mp h2⟩
    · have c0 : cs = 0 := by
        have := congrArg Multiset.card h1
        simp only [Multiset.card_singleton, Multiset.card_cons] at this
        exact Multiset.card_eq_zero.mp (by omega)
      subst c0
      exact Or.inr ⟨(Multiset.singleton_inj.mp h2).symm, Multiset.singleton_inj.mp h1⟩
  · rintro (⟨rfl, rfl⟩ | ⟨rfl, rfl⟩)
    · exact List.Perm.refl _
    · exact List.Perm.swap _ _ _

set_option maxRecDepth 100000 in
theorem mated_cases : ∀ (g : Equiv.Perm (Fin 4)) (k : Fin 4), g k = 0 → g (mate k) = 1 →
    ((g 0 = 0 ∧ g 1 = 1 ∨ g 0 = 1 ∧ g 1 = 0) ∧ (g 2 = 2 ∧ g 3 = 3 ∨ g 2 = 3 ∧ g 3 = 2)) ∨
    ((g 0 = 2 ∧ g 1 = 3 ∨ g 0 = 3 ∧ g 1 = 2) ∧ (g 2 = 0 ∧ g 3 = 1 ∨ g 2 = 1 ∧ g 3 = 0)) := by decide

/-- An event that a reaction contributes to has the same species on both sides if the reaction has. -/
theorem mated_same (s θ : Fin 4 → S) (g : Equiv.Perm (Fin 4)) (k : Fin 4) (h0 : g k = 0) (h1 : g (mate k) = 1) (h : s ∘ g = θ) :
    SamePair (s 0) (s 1) (s 2) (s 3) ↔ SamePair (θ 0) (θ 1) (θ 2) (θ 3) := by
  subst h
  unfold SamePair
  simp only [Function.comp]
  rcases mated_cases g k h0 h1 with ⟨⟨a, b⟩ | ⟨a, b⟩, ⟨c, d⟩ | ⟨c, d⟩⟩ | ⟨⟨a, b⟩ | ⟨a, b⟩, ⟨c, d⟩ | ⟨c, d⟩⟩ <;>
  rw [a, b, c, d] <;> constructor <;> rintro (⟨x, y⟩ | ⟨x, y⟩) <;> simp [x, y]

theorem elastic_iff (i : Integral4 S) (h : TwoTwo i) :
    elastic i = true ↔ SamePair (specieAt i 0) (specieAt i 1) (specieAt i 2) (specieAt i 3) := by
  have e := twoTwo_key i h
  unfold sideKey at e
  obtain ⟨e1, e2⟩ := Prod.mk.inj e
  unfold elastic
  rw [e1, e2, List.isPerm_iff, samePair_perm]

/-- The elastic integrals feed the events with the same species on both sides as all do, and no others. -/
theorem totalAmp_elastic (θ : Fin 4 → S) (k : Fin 4) (α β : Fin 4 → Fin 4 → Fin 4 → Fin 4 → ℝ) (l : List (Integral4 S))
    (h : ∀ i ∈ l, TwoTwo i) :
    (SamePair (θ 0) (θ 1) (θ 2) (θ 3) →
      totalAmp (evAmp θ k α) (evAmp θ k β) (l.filter elastic) = totalAmp (evAmp θ k α) (evAmp θ k β) l) ∧
    (¬ SamePair (θ 0) (θ 1) (θ 2) (θ 3) → totalAmp (evAmp θ k α) (evAmp θ k β) (l.filter elastic) = 0) := by
  have zero : ∀ (γ : Fin 4 → Fin 4 → Fin 4 → Fin 4 → ℝ) (i : Integral4 S), TwoTwo i →
      ¬ (elastic i = true ↔ SamePair (θ 0) (θ 1) (θ 2) (θ 3)) → ∀ o, evAmp θ k γ (sideKey i.reaction) o = 0 := by
    intro γ i hi hn o
    rw [twoTwo_key i hi]
    unfold evAmp
    apply Finset.sum_eq_zero
    intro g _
    rw [if_neg]
    rintro ⟨h0, h1, h2⟩
    apply hn
    rw [elastic_iff i hi]
    exact mated_same ![specieAt i 0, specieAt i 1, specieAt i 2, specieAt i 3] θ g k h0 h1 h2
  have lin : ∀ i : Integral4 S, TwoTwo i → ¬ (elastic i = true ↔ SamePair (θ 0) (θ 1) (θ 2) (θ 3)) →
      linAmp (evAmp θ k α (sideKey i.reaction)) (evAmp θ k β (sideKey i.reaction)) i.Ms = 0 := by
    intro i hi hn
    unfold linAmp
    apply List.sum_eq_zero
    intro x hx
    obtain ⟨m, -, rfl⟩ := List.mem_map.mp hx
    rw [zero α i hi hn, zero β i hi hn]; ring
  induction l with
  | nil => exact ⟨fun _ => rfl, fun _ => rfl⟩
  | cons i l ih =>
    obtain ⟨p1, p2⟩ := ih fun j hj => h j (List.mem_cons_of_mem _ hj)
    have hi := h i (List.mem_cons_self ..)
    refine ⟨fun hs => ?_, fun hs => ?_⟩
    · by_cases he : elastic i = true
      · rw [List.filter_cons_of_pos he, totalAmp_cons, totalAmp_cons, p1 hs]
      · rw [List.filter_cons_of_neg he, totalAmp_cons, p1 hs, lin i hi (fun x => he (x.mpr hs)), zero_add]
    · by_cases he : elastic i = true
      · rw [List.filter_cons_of_pos he, totalAmp_cons, p2 hs, lin i hi (fun x => hs (x.mp he)), add_zero]
      · rw [List.filter_cons_of_neg he, p2 hs]

theorem elasticOnly_flatten (o : List (List (Integral4 S))) : (elasticOnly o).flatten = o.flatten.filter elastic := by
  unfold elasticOnly
  rw [List.filter_flatten]

/-- The elastic part of a balanced list of scatterings is balanced. -/
theorem elastic_balanced (c : LibConst) (l : List (Integral4 S)) (h : ∀ i ∈ l, TwoTwo i) (hb : BalancedList c l) :
    BalancedList c (l.filter elastic) := by
  intro α β hα hβ hs θ
  obtain ⟨B, h1, h2⟩ := hb hα hβ hs θ
  by_cases ht : SamePair (θ 0) (θ 1) (θ 2) (θ 3)
  · exact ⟨B, fun i => by rw [(totalAmp_elastic θ i α β l h).1 ht, h1], h2⟩
  · exact ⟨0, fun i => (totalAmp_elastic θ i α β l h).2 ht, fun _ => le_rfl⟩

/-- **C112.** The integrals kept by the sum-rule script, evaluated by `integrate`.  If no event is inside the grids of one side
of its reaction only, their arrays, which are samples of `J`, do not change the number of any species, nor the energy of all
together, and do not decrease the entropy. -/
theorem C112_elastic (c : LibConst) (leptons neutrinos : List S) (ok : Light A neutrinos leptons) :
    ∃ o, (neutrinoInteractions A c leptons neutrinos).mapM (Decl.integrals A) = .ok o ∧
      ∀ l, l = (elasticOnly o).flatten →
      ∀ (sp : S → Species) (st : S → PState ι) (GF : ℝ) (p : Params) (P : S → ℝ) (r : Fin l.length → Int4 ι)
        (sched : Fin l.length → List (List ℕ)), 0 < p.aT → 0 < p.a → (∀ n : Fin l.length, Runs A sp st GF l[(n : ℕ)] (r n)) →
      (∀ n, Plain4 (r n)) → (∀ n, Covers4 (r n) (sched n)) →
      (∀ s ∈ neutrinos ++ leptons, 0 ≤ (sp s).mass ∧ 0 ≤ P s ∧ Regular (toC (sp s) (st s) p)) →
      (∀ n : Fin l.length, (r n).max1 = P (specieAt l[(n : ℕ)] 1)) → (∀ n, ∀ y ∈ ((r n).sp 0).grid, y ≤ (r n).ub) →
      (∀ n : Fin l.length, 3 * (((r n).sp 2).mass + ((r n).sp 3).mass - ((r n).sp 0).mass) * p.a ≤ P (specieAt l[(n : ℕ)] 1)) →
      ∃ (f : S → ℝ → ℝ) (J : Fin l.length → ℝ → ℝ),
        (∀ (n : Fin l.length) j q, 0 ≤ q → occAt ((r n).reaction p j).specie q = .ok (f (specieAt l[(n : ℕ)] j) q)) ∧
        (∀ n, Returns4 (r n) p (sched n) (J n)) ∧
        ((∀ n : Fin l.length, Confined ((r n).reaction p) (fun j => f (specieAt l[(n : ℕ)] j))
            fun j => P (specieAt l[(n : ℕ)] j) / p.aT) →
          (∀ s, ∑ n : Fin l.length, (if l[(n : ℕ)].particle = s then
              ((r n).sp 0).dof * ∫ y in Set.Ioc 0 (P l[(n : ℕ)].particle), y ^ 2 * J n y else 0) = 0) ∧
          ∑ n : Fin l.length, ((r n).sp 0).dof * ∫ y in Set.Ioc 0 (P l[(n : ℕ)].particle),
            y ^ 2 * (energyOf (((r n).sp 0).mass * p.a) y * J n y) = 0 ∧
          ((∀ (n : Fin l.length) j q, 0 ≤ q → ((r n).sp j).fermion = true → f (specieAt l[(n : ℕ)] j) q ≤ 1) →
          0 ≤ p.H → 0 ≤ p.x →
          ∃ C, 0 ≤ C ∧ ∀ ε, 0 < ε → ε ≤ 1 → -(C * (ε * (1 + |Real.log ε|))) ≤
            ∑ n : Fin l.length, ((r n).sp 0).dof * ∫ y in Set.Ioc 0 (P l[(n : ℕ)].particle),
              y ^ 2 * ((Real.log (max (1 - ((r n).sp 0).eta * f l[(n : ℕ)].particle (y / p.aT)) ε) -
                Real.log (max (f l[(n : ℕ)].particle (y / p.aT)) ε)) * J n y))) := by
  obtain ⟨o, o2, e, -, hamp⟩ := library_amp (c := c) ok.inj ok.dirac leptons neutrinos
  refine ⟨o, e, fun l hl => ?_⟩
  have htwo := C107_only_scatterings c leptons neutrinos ok o e
  have hsound := (library_sound c ok.inj leptons neutrinos).1 o e
  have hbal : BalancedList c o.flatten := fun hα hβ hs θ => (hamp hα hβ hs θ).1
  rw [elasticOnly_flatten] at hl
  have mem : ∀ i ∈ l, i ∈ o.flatten ∧ elastic i = true := fun i hi => List.mem_filter.mp (hl ▸ hi)
  intro sp st GF p P r sched haT ha hrun hpl hcov hspec hmax hwhole hthr
  obtain ⟨f, J, hf, hJ, -, -, -, hlaw⟩ := list_laws (ι := ι) c leptons neutrinos ok l (fun i hi => hsound i (mem i hi).1)
    (fun i hi => htwo i (mem i hi).1) (hl ▸ elastic_balanced c o.flatten htwo hbal)
    sp st GF p P r sched haT ha hrun hpl hcov hspec hmax hwhole hthr
  refine ⟨f, J, hf, hJ, fun hc => ?_⟩
  obtain ⟨h1, h2⟩ := hlaw hc
  refine ⟨fun s => ?_, ?_, h2⟩
  · have := h1 (fun t _ => if t = s then 1 else 0) (fun t => measurable_const)
      (fun t R => ⟨1, fun E _ => by split_ifs <;> simp⟩) (fun i hi x y z w _ => by
        rcases (elastic_iff i (htwo i (mem i hi).1)).mp (mem i hi).2 with ⟨a, b⟩ | ⟨a, b⟩
        · rw [a, b]
        · rw [a, b, add_comm])
    refine Eq.trans (Finset.sum_congr rfl fun n _ => ?_) this
    by_cases hs : l[(n : ℕ)].particle = s
    · rw [if_pos hs]; simp only [if_pos hs, one_mul]
    · rw [if_neg hs]; simp only [if_neg hs, zero_mul, mul_zero, integral_zero]
  · exact h1 (fun _ E => E) (fun t => measurable_id) (fun t R => ⟨R, fun E h => h⟩) fun i _ x y z w h => h

/-- **C112, what is dropped.** The integrals that the script drops are those of annihilations `a + a → b + b` into another
species. -/
theorem C112_dropped (c : LibConst) (leptons neutrinos : List S) (ok : Light A neutrinos leptons) :
    ∀ o, (neutrinoInteractions A c leptons neutrinos).mapM (Decl.integrals A) = .ok o →
      ∀ i ∈ o.flatten, i ∉ (elasticOnly o).flatten →
        ∃ a b, a ≠ b ∧ speciesOn (-1) i.reaction = [a, a] ∧ speciesOn 1 i.reaction = [b, b] := by
  intro o e i hi hn
  rw [elasticOnly_flatten] at hn
  have he : elastic i ≠ true := fun h => hn (List.mem_filter.mpr ⟨hi, h⟩)
  have ht := C107_only_scatterings c leptons neutrinos ok o e i hi
  obtain ⟨a, b, hab⟩ := library_pairs c leptons neutrinos ok o e i hi
  rw [Ne, elastic_iff i ht] at he
  have k := twoTwo_key i ht
  unfold sideKey at k
  obtain ⟨k1, k2⟩ := Prod.mk.inj k
  rw [k1, k2] at hab ⊢
  generalize specieAt i 0 = x at *
  generalize specieAt i 1 = y at *
  generalize specieAt i 2 = z at *
  generalize specieAt i 3 = w at *
  have hab' : ({x, y, z, w} : Multiset S) = {a, a, b, b} := hab
  have mx : ∀ v ∈ ({x, y, z, w} : Multiset S), v = a ∨ v = b := by
    intro v hv
    rw [hab'] at hv
    simp only [Multiset.insert_eq_cons, Multiset.mem_cons, Multiset.mem_singleton] at hv
    tauto
  have ca := congrArg (Multiset.count a) hab'
  have cb := congrArg (Multiset.count b) hab'
  unfold SamePair at he
  have hx := mx x (by simp)
  have hy := mx y (by simp)
  have hz := mx z (by simp)
  have hw := mx w (by simp)
  by_cases hne : a = b
  · subst hne
    exfalso; apply he
    simp only [or_self] at hx hy hz hw
    left; rw [hx, hy, hz, hw]; exact ⟨rfl, rfl⟩
  have hne' : b ≠ a := fun h => hne h.symm
  clear k k1 k2 hab hab' mx
  rcases hx with rfl | rfl <;> rcases hy with rfl | rfl <;> rcases hz with rfl | rfl <;> rcases hw with rfl | rfl <;>
  simp [Multiset.insert_eq_cons, hne, hne'] at ca cb he ⊢

/-! ## What is kept -/

theorem rateIn_some {l : List (Integral4 S)} {s : S} {L R : Multiset S} (h : rateIn A l s L R ≠ 0) :
    ∃ i ∈ l, InClass s L R i := by
  classical
  by_contra hn
  apply h
  unfold rateIn
  rw [List.filter_eq_nil_iff.mpr fun i hi => by simpa using fun hc => hn ⟨i, hi, hc⟩]
  rfl

theorem openClass_pair (L R : Multiset S) (h1 : L.card = 2) (h2 : R.card = 2) : OpenClass A L R := by
  refine ⟨?_, by omega, by omega⟩
  rintro rfl
  simp at h2

theorem splits_pos (ls : List (Item S)) (p q r t : Item S) (hnd : [p, q, r, t].Nodup) (hls : ls.Perm [p, q, r, t]) :
    0 < (splits ls {p.specie, q.specie} {r.specie, t.specie}).card := by
  simp only [List.nodup_cons, List.mem_cons, List.not_mem_nil, or_false, not_or, not_false_eq_true, List.nodup_nil,
    and_true] at hnd
  obtain ⟨⟨h1, h2, h3⟩, ⟨h4, h5⟩, h6⟩ := hnd
  rw [Finset.card_pos]
  refine ⟨{p, q}, ?_⟩
  have hls : ls.toFinset = {p, q, r, t} := by
    rw [List.toFinset_eq_of_perm _ _ hls]
    simp only [List.toFinset_cons, List.toFinset_nil]
    rfl
  have hs : ({p, q, r, t} : Finset (Item S)) \ {p, q} = {r, t} := by
    ext v
    simp only [Finset.mem_sdiff, Finset.mem_insert, Finset.mem_singleton, not_or]
    constructor
    · rintro ⟨rfl | rfl | rfl | rfl, a, b⟩ <;> tauto
    · rintro (rfl | rfl)
      · exact ⟨by tauto, fun h => h2 h.symm, fun h => h4 h.symm⟩
      · exact ⟨by tauto, fun h => h3 h.symm, fun h => h5 h.symm⟩
  have val : ∀ u v : Item S, u ≠ v → ({u, v} : Finset (Item S)).val.map (·.specie) = {u.specie, v.specie} := by
    intro u v h
    rw [Finset.insert_val_of_notMem (by simpa using h)]
    rfl
  simp only [splits, Finset.mem_filter, Finset.mem_powerset, hls]
  refine ⟨?_, val p q h1, ?_⟩
  · intro v; simp only [Finset.mem_insert, Finset.mem_singleton]; tauto
  · rw [hs]; exact val r t h6

theorem mapM_reaches {α β ε : Type*} (g : α → Except ε β) : ∀ (l : List α) (o : List β), l.mapM g = .ok o →
    ∀ x ∈ l, ∀ y, g x = .ok y → y ∈ o := by
  intro l
  induction l with
  | nil => intro o _ x hx; simp at hx
  | cons x l ih =>
    intro o e z hz y hy
    rw [List.mapM_cons] at e
    cases h1 : g x with
    | error er => rw [h1] at e; exact absurd e (by intro h; cases h)
    | ok y1 =>
      cases h2 : l.mapM g with
      | error er => rw [h1, h2] at e; exact absurd e (by intro h; cases h)
      | ok ys =>
        rw [h1, h2] at e
        obtain rfl : y1 :: ys = o := Except.ok.inj e
        rcases List.mem_cons.mp hz with rfl | hz
        · rw [h1] at hy
          rw [Except.ok.inj hy]; exact List.mem_cons_self ..
        · exact List.mem_cons_of_mem _ (ih ys h2 z hz y hy)

theorem combRepl_pairs {α : Type*} (l : List α) (a b : α) (ha : a ∈ l) (hb : b ∈ l) :
    (a, b) ∈ combRepl l ∨ (b, a) ∈ combRepl l := by
  induction l with
  | nil => simp at ha
  | cons x l ih =>
    unfold combRepl
    simp only [List.mem_append, List.mem_map]
    rcases List.mem_cons.mp ha with rfl | ha'
    · exact Or.inl (Or.inl ⟨b, hb, rfl⟩)
    · rcases List.mem_cons.mp hb with rfl | hb'
      · exact Or.inr (Or.inl ⟨a, ha, rfl⟩)
      · rcases ih ha' hb' with h | h
        · exact Or.inl (Or.inr h)
        · exact Or.inr (Or.inr h)

/-- **C112, what is kept.** The script is not vacuous: for any two neutrinos, and any neutrino and charged lepton, an integral of
their elastic scattering is kept for either of them. -/
theorem C112_kept (c : LibConst) (hG : c.GF ≠ 0) (leptons neutrinos : List S) (ok : Light A neutrinos leptons) :
    ∀ o, (neutrinoInteractions A c leptons neutrinos).mapM (Decl.integrals A) = .ok o →
      ∀ a ∈ neutrinos, ∀ b ∈ neutrinos ++ leptons, ∀ s, s = a ∨ s = b → ∃ i ∈ (elasticOnly o).flatten, i.particle = s ∧
        ((speciesOn (-1) i.reaction : List S) : Multiset S) = {a, b} ∧ ((speciesOn 1 i.reaction : List S) : Multiset S) = {a, b} := by
  intro o e a ha b hb s hs
  have hn : ∀ s ∈ neutrinos, A.name s ≠ hnlName := fun s h => ok.name s (List.mem_append_left _ h)
  have hl : ∀ s ∈ leptons, A.name s ≠ hnlName := fun s h => ok.name s (List.mem_append_right _ h)
  have G2 : (0 : ℝ) < 32 * c.GF ^ 2 := by positivity
  have fin : ∀ d ∈ neutrinoInteractions A c leptons neutrinos, ∀ out, d.integrals A = .ok out →
      rateIn A out s {a, b} {a, b} ≠ 0 → ∃ i ∈ (elasticOnly o).flatten, i.particle = s ∧
        ((speciesOn (-1) i.reaction : List S) : Multiset S) = {a, b} ∧ ((speciesOn 1 i.reaction : List S) : Multiset S) = {a, b} := by
    intro d hd out e1 hr
    obtain ⟨i, hi, h1, h2, h3⟩ := rateIn_some hr
    refine ⟨i, ?_, h1, h2, h3⟩
    rw [elasticOnly_flatten]
    refine List.mem_filter.mpr ⟨List.mem_flatten.mpr ⟨out, mapM_reaches _ _ _ e d hd out e1, hi⟩, ?_⟩
    unfold elastic
    rw [List.isPerm_iff]
    exact Multiset.coe_eq_coe.mp (h2.trans h3.symm)
  have cnt : (0 : ℝ) < (({a, b} : Multiset S).count s : ℕ) := by
    rw [Nat.cast_pos, Multiset.count_pos]
    simpa using hs
  have opn : OpenClass A ({a, b} : Multiset S) {a, b} := openClass_pair _ _ rfl rfl
  have sin : s ∈ ({a, b} : Multiset S) := by simpa using hs
  rcases List.mem_append.mp hb with hb | hb
  · have scat : ∀ x y : S, ({a, b} : Multiset S) = {x, y} → x ∈ neutrinos → y ∈ neutrinos → (x, y) ∈ combRepl neutrinos →
        ∃ i ∈ (elasticOnly o).flatten, i.particle = s ∧ ((speciesOn (-1) i.reaction : List S) : Multiset S) = {a, b} ∧
          ((speciesOn 1 i.reaction : List S) : Multiset S) = {a, b} := by
      intro x y hxy hx hy hc
      obtain ⟨out, e1, h1⟩ := scattering_rate (c := c) ok.inj ok.dirac ok.mass x y (hn x hx) (hn y hy)
      refine fin _ (List.mem_append_left _ (List.mem_map.mpr ⟨_, hc, rfl⟩)) out e1 ?_
      rw [h1 s _ _ sin]
      refine mul_ne_zero cnt.ne' ?_
      unfold processWeight neutrinoScattering
      rw [if_pos opn]
      refine mul_ne_zero ?_ ?_
      · rw [Nat.cast_ne_zero, ← Nat.pos_iff_ne_zero, hxy, legs_two]
        exact splits_pos _ ⟨-1, x, false, 0, false⟩ ⟨-1, y, false, 1, false⟩ ⟨1, x, false, 2, false⟩ ⟨1, y, false, 3, false⟩
          (by simp) (List.Perm.refl _)
      · simp [sumK1, weakM, hG]
    rcases combRepl_pairs neutrinos a b ha hb with h | h
    · exact scat a b rfl ha hb h
    · exact scat b a (Multiset.pair_comm _ _) hb ha h
  · obtain ⟨out, e1, h1⟩ := annihilation_rate (c := c) ok.inj ok.dirac ok.mass a b (couplingL A c b a) (hn a ha) (hl b hb)
    refine fin _ (List.mem_append_right _ (List.mem_flatMap.mpr ⟨b, hb, List.mem_map.mpr ⟨a, ha, rfl⟩⟩)) out e1 ?_
    rw [h1 s _ _ sin]
    refine mul_ne_zero cnt.ne' ?_
    unfold processWeight neutrinosToLeptons
    rw [if_pos opn]
    refine mul_ne_zero ?_ ?_
    · rw [Nat.cast_ne_zero, ← Nat.pos_iff_ne_zero, legs_two]
      exact splits_pos _ ⟨-1, a, false, 0, false⟩ ⟨1, b, false, 2, false⟩ ⟨-1, a, true, 1, false⟩ ⟨1, b, true, 3, false⟩
        (by simp) ((List.Perm.swap _ _ _).cons _)
    · have hg : 0 < c.gR ^ 2 + couplingL A c b a ^ 2 := by
        unfold couplingL
        split_ifs <;> nlinarith [sq_nonneg (c.gR + 0.5 + c.gR), sq_nonneg (c.gR - 0.5 + c.gR)]
      simp only [sumK1, weakM, List.map_cons, List.map_nil, List.sum_cons, List.sum_nil]
      nlinarith [mul_pos hg G2]

end

section Example
/-- Electrons, muons and two neutrinos with spectra far from equilibrium: the number of muons, of each neutrino and of electrons
is conserved by the elastic processes, and there are such processes of each of them. -/
example (c : LibConst) (hG : c.GF ≠ 0) :
    ∃ o, (neutrinoInteractions termsAttr c [4, 3] [1, 2]).mapM (Decl.integrals termsAttr) = .ok o ∧
    ∀ l, l = (elasticOnly o).flatten → (∀ s ∈ ([1, 2, 3, 4] : List (Fin 5)), ∃ i ∈ l, i.particle = s) ∧
      ∃ J : Fin l.length → ℝ → ℝ,
      (∀ n : Fin l.length, Returns4 (lawRun l[(n : ℕ)]) lawP (oneThread4 (lawRun l[(n : ℕ)])) (J n)) ∧
      ∀ s, ∑ n : Fin l.length, (if l[(n : ℕ)].particle = s then (2 : ℝ) * ∫ y in Set.Ioc 0 1000, y ^ 2 * J n y else 0) = 0 := by
  obtain ⟨o, e, h⟩ := C112_elastic (ι := ℕ) c [4, 3] [1, 2] termsAttr_light
  refine ⟨o, e, fun l hl => ⟨?_, ?_⟩⟩
  · have k := C112_kept c hG [4, 3] [1, 2] termsAttr_light o e 1 (by simp)
    rw [← hl] at k
    intro s hs
    obtain ⟨i, h1, h2, -⟩ := k s ((by decide : ∀ s : Fin 5, s ∈ ([1, 2, 3, 4] : List (Fin 5)) →
      s ∈ ([1, 2] ++ [4, 3] : List (Fin 5))) s hs) s (Or.inr rfl)
    exact ⟨i, h1, h2⟩
  have hsound : ∀ i ∈ l, Sound termsAttr (· ∈ [1, 2] ++ [4, 3]) i ∧ TwoTwo i := by
    intro i hi
    rw [hl, elasticOnly_flatten] at hi
    have hi := (List.mem_filter.mp hi).1
    exact ⟨(library_sound c termsAttr_light.inj [4, 3] [1, 2]).1 o e i hi,
      C107_only_scatterings c [4, 3] [1, 2] termsAttr_light o e i hi⟩
  obtain ⟨h1, h2, h3, h4, h5, h6⟩ := law_ready l hsound
  obtain ⟨f, J, hf, hJ, htot⟩ := h l hl lawSp lawSt 1 lawP (fun _ => 1000) (fun n => lawRun l[(n : ℕ)])
    (fun n => oneThread4 (lawRun l[(n : ℕ)])) (by norm_num [lawP]) (by norm_num [lawP]) h1 h2
    (fun n => covers4_oneThread _) h3 (fun n => rfl) h4 h5
  exact ⟨J, hJ, (htot (h6 f hf).1).1⟩

/-- With electrons and two neutrinos something is dropped. -/
example (c : LibConst) (o : List (List (Integral4 (Fin 5))))
    (e : (neutrinoInteractions termsAttr c [4, 3] [1, 2]).mapM (Decl.integrals termsAttr) = .ok o) :=
  C112_dropped c [4, 3] [1, 2] termsAttr_light o e
end Example

end PyBBN
