import Verif.Model.Selection
import Mathlib.Data.List.Sort
import Mathlib.Tactic.Linarith
import Mathlib.Tactic.IntervalCases
import Mathlib.Tactic.NormNum
/-!
# C53, C54, C57, C62: ordering, filters, reaction types, multiplicities
-/
set_option linter.unusedSectionVars false
namespace PyBBN

/-! ## C53 -/

section
variable {P : Type*} (mass : P → ℝ) (name : P → String)

/-- Specification of the order: heavier first, equal masses by descending name. -/
def Before (x y : P) : Prop := mass y < mass x ∨ (mass y = mass x ∧ name y ≤ name x)

theorem not_ltPart_iff (x y : P) : ¬ ltPart mass name x y = true ↔ Before mass name x y := by
  unfold ltPart Before
  by_cases h : mass x = mass y
  · rw [if_neg (not_not.mpr h)]
    simp only [h, decide_eq_true_eq, lt_irrefl, true_and, false_or, not_lt]
  · rw [if_pos h]
    simp only [decide_eq_true_eq, not_lt]
    constructor
    · intro k; exact Or.inl (lt_of_le_of_ne k (Ne.symm h))
    · rintro (k | k)
      · exact k.le
      · exact absurd k.1.symm h

theorem before_total (x y : P) : Before mass name x y ∨ Before mass name y x := by
  unfold Before
  rcases lt_trichotomy (mass x) (mass y) with h | h | h
  · exact Or.inr (Or.inl h)
  · rcases le_total (name x) (name y) with k | k
    · exact Or.inr (Or.inr ⟨h, k⟩)
    · exact Or.inl (Or.inr ⟨h.symm, k⟩)
  · exact Or.inl (Or.inl h)

theorem before_trans (x y z : P) (h : Before mass name x y) (k : Before mass name y z) :
    Before mass name x z := by
  unfold Before at *
  rcases h with h | ⟨h, h'⟩ <;> rcases k with k | ⟨k, k'⟩
  · exact Or.inl (k.trans h)
  · exact Or.inl (k ▸ h)
  · exact Or.inl (h ▸ k)
  · exact Or.inr ⟨k.trans h, k'.trans h'⟩

theorem before_antisymm (x y : P) (h : Before mass name x y) (k : Before mass name y x) :
    mass x = mass y ∧ name x = name y := by
  unfold Before at *
  rcases h with h | ⟨h, h'⟩ <;> rcases k with k | ⟨k, k'⟩
  · exact absurd k (not_lt.mpr h.le)
  · exact absurd k h.ne'
  · exact absurd h k.ne'
  · exact ⟨k, le_antisymm k' h'⟩

theorem orderer_sorted (l : List P) :
    (particleOrderer mass name l).Pairwise (Before mass name) := by
  unfold particleOrderer
  have tot : Std.Total (fun x y : P => ¬ ltPart mass name x y = true) :=
    ⟨fun x y => by simpa only [not_ltPart_iff] using before_total mass name x y⟩
  have tr : IsTrans P (fun x y : P => ¬ ltPart mass name x y = true) :=
    ⟨fun x y z => by
      simpa only [not_ltPart_iff] using before_trans mass name x y z⟩
  have := List.pairwise_insertionSort (fun x y : P => ¬ ltPart mass name x y = true) l
  exact this.imp fun h => (not_ltPart_iff mass name _ _).mp h

/-- **C53 (order).** After `particle_orderer` (hence after every `add_particles`) the list contains every
particle as often as before, masses never increase along the list, and among equal masses the names
never increase. -/
theorem C53_orderer (l : List P) :
    (particleOrderer mass name l).Perm l ∧
    ∀ i j (hi : i < (particleOrderer mass name l).length)
      (hj : j < (particleOrderer mass name l).length), i < j →
      mass (particleOrderer mass name l)[j] < mass (particleOrderer mass name l)[i] ∨
      (mass (particleOrderer mass name l)[j] = mass (particleOrderer mass name l)[i] ∧
        name (particleOrderer mass name l)[j] ≤ name (particleOrderer mass name l)[i]) := by
  refine ⟨List.perm_insertionSort _ _, ?_⟩
  intro i j hi hj hij
  exact List.pairwise_iff_getElem.mp (orderer_sorted mass name l) i j hi hj hij

/-- **C53 (insertion order).** If no two particles of the list share both mass and name, the result does
not depend on the order in which the particles were added. -/
theorem C53_insertion_order (l l' : List P) (h : l.Perm l')
    (inj : ∀ x ∈ l, ∀ y ∈ l, mass x = mass y → name x = name y → x = y) :
    particleOrderer mass name l = particleOrderer mass name l' := by
  have p1 : (particleOrderer mass name l).Perm l := List.perm_insertionSort _ _
  have p2 : (particleOrderer mass name l').Perm l' := List.perm_insertionSort _ _
  refine List.Perm.eq_of_pairwise ?_ (orderer_sorted mass name l) (orderer_sorted mass name l')
    (p1.trans (h.trans p2.symm))
  intro x y hx hy h1 h2
  obtain ⟨e1, e2⟩ := before_antisymm mass name x y h1 h2
  exact inj x (p1.subset hx) y (h.symm.subset (p2.subset hy)) e1 e2

/-- **C53 (repeated ordering).** Ordering an ordered list changes nothing, also when some particles share
mass and name; so adding no particles leaves the list as it is. -/
theorem C53_idempotent (l : List P) :
    particleOrderer mass name (particleOrderer mass name l) = particleOrderer mass name l := by
  have h := orderer_sorted mass name l
  generalize particleOrderer mass name l = m at h
  unfold particleOrderer
  apply List.Pairwise.insertionSort_eq
  exact h.imp fun k => (not_ltPart_iff mass name _ _).mpr k

/-- **C53 (incremental).** Adding particles in two portions gives the same list as adding them at once,
for distinct mass/name pairs. -/
theorem C53_two_portions (l a b : List P)
    (inj : ∀ x ∈ l ++ a ++ b, ∀ y ∈ l ++ a ++ b, mass x = mass y → name x = name y → x = y) :
    particleOrderer mass name (particleOrderer mass name (l ++ a) ++ b) =
      particleOrderer mass name (l ++ (a ++ b)) := by
  have p1 : (particleOrderer mass name (l ++ a)).Perm (l ++ a) := List.perm_insertionSort _ _
  have p2 : (particleOrderer mass name (l ++ a) ++ b).Perm (l ++ (a ++ b)) := by
    rw [← List.append_assoc]; exact p1.append_right b
  apply C53_insertion_order mass name _ _ p2
  intro x hx y hy
  exact inj x (by rw [List.append_assoc]; exact p2.subset hx) y
    (by rw [List.append_assoc]; exact p2.subset hy)

/-- **C53 (filter).** `particle_filter` keeps the unnamed particles, each as often as before and in the
same relative order, and no named one. -/
theorem C53_filter (names : List String) (l : List P) :
    (particleFilter name names l).Sublist l ∧
    (∀ x, x ∈ particleFilter name names l ↔ x ∈ l ∧ name x ∉ names) ∧
    (∀ [DecidableEq P] (x : P), name x ∉ names →
      (particleFilter name names l).count x = l.count x) := by
  refine ⟨List.filter_sublist, ?_, ?_⟩
  · intro x
    simp [particleFilter]
  · intro _ x hx
    unfold particleFilter
    exact List.count_filter (by simpa using hx)

end

example : particleOrderer (P := ℝ × String) Prod.fst Prod.snd [(1, "b"), (2, "a"), (1, "c")] =
    particleOrderer Prod.fst Prod.snd [(1, "c"), (1, "b"), (2, "a")] := by
  apply C53_insertion_order
  · exact ((List.Perm.swap _ _ _).trans ((List.Perm.cons _ (List.Perm.swap _ _ _)).trans
      ((List.Perm.swap _ _ _).trans (List.Perm.cons _ (List.Perm.swap _ _ _)))))
  · intro x _ y _ h1 h2; exact Prod.ext h1 h2

/-! ## C54 -/

section
variable {ι : Type*}

theorem compM_ok {α : Type*} (c : α → Except Err Bool) (b : α → Bool) (l : List α)
    (h : ∀ x ∈ l, c x = .ok (b x)) : compM c l = .ok (l.filter b) := by
  induction l with
  | nil => rfl
  | cons x l ih =>
    rw [compM, h x (by simp)]
    simp only [ih fun y hy => h y (by simp [hy])]
    by_cases hb : b x <;> simp [hb]

theorem compM_error {α : Type*} (c : α → Except Err Bool) (l : List α) (e : Err)
    (h1 : ∃ x ∈ l, c x = .error e) (h2 : ∀ x ∈ l, ∀ e', c x = .error e' → e' = e) :
    compM c l = .error e := by
  induction l with
  | nil => simp at h1
  | cons x l ih =>
    rw [compM]
    cases hx : c x with
    | error e' => simp [h2 x (by simp) e' hx]
    | ok b =>
      obtain ⟨y, hy, he⟩ := h1
      have : y ∈ l := by
        rcases List.mem_cons.mp hy with r | r
        · subst r; rw [hx] at he; cases he
        · exact r
      simp only [ih ⟨y, this, he⟩ fun z hz => h2 z (by simp [hz])]

/-- Specification: the integral survives. -/
def Survives (names : List String) (firstOnly : Bool) (rt : List (Option ℤ)) (x : FInt ι) : Prop :=
  (if firstOnly then ∀ a, x.reaction.head? = some a → a.1 ∉ names else ∀ a ∈ x.reaction, a.1 ∉ names) ∧
  some (x.reaction.map Prod.snd).sum ∉ rt

theorem filterIntegrals_spec (names : List String) (firstOnly : Bool) (rt : List (Option ℤ))
    (l : List (FInt ι)) (hne : firstOnly = true → ∀ x ∈ l, x.reaction ≠ []) :
    ∃ l', filterIntegrals names firstOnly rt l = .ok l' ∧ l'.Sublist l ∧
      ∀ [DecidableEq (FInt ι)] x, l'.count x = open Classical in
        if Survives names firstOnly rt x then l.count x else 0 := by
  classical
  have key : ∃ b : FInt ι → Bool, (∀ x ∈ l, (if firstOnly then keepFirst names rt else
      fun x => .ok (keepAll names rt x)) x = .ok (b x)) ∧
      ∀ x ∈ l, (b x = true ↔ Survives names firstOnly rt x) := by
    cases firstOnly with
    | false =>
      refine ⟨keepAll names rt, fun x _ => by simp, fun x _ => ?_⟩
      simp [keepAll, Survives]
    | true =>
      refine ⟨fun x => match x.reaction with
        | [] => false
        | a :: _ => ! names.contains a.1 && ! rt.contains (some (x.reaction.map Prod.snd).sum),
        fun x hx => ?_, fun x hx => ?_⟩
      · have := hne rfl x hx
        simp only [if_true, keepFirst]
        cases hr : x.reaction with
        | nil => exact absurd hr this
        | cons a t => rfl
      · have := hne rfl x hx
        unfold Survives
        obtain ⟨id, r⟩ := x
        cases r with
        | nil => exact absurd rfl this
        | cons a t => simp
  obtain ⟨b, hb, hs⟩ := key
  refine ⟨l.filter b, compM_ok _ b l hb, List.filter_sublist, ?_⟩
  intro _ x
  by_cases hx : x ∈ l
  · by_cases hb' : b x = true
    · rw [if_pos ((hs x hx).mp hb'), List.count_filter hb']
    · rw [if_neg (fun k => hb' ((hs x hx).mpr k)), List.count_eq_zero]
      simp [hb']
  · have h0 : l.count x = 0 := List.count_eq_zero.mpr hx
    have : (l.filter b).count x = 0 := List.count_eq_zero.mpr fun k => hx (List.mem_filter.mp k).1
    rw [this, h0]; simp

/-- **C54.** `interaction_filter` treats every interaction: the new list of integrals is a sublist of the
old one (order kept) in which exactly the surviving integrals occur, each as often as before. -/
theorem C54_filter (names : List String) (firstOnly : Bool) (rt : List (Option ℤ))
    (ls : List (List (FInt ι))) (hne : firstOnly = true → ∀ l ∈ ls, ∀ x ∈ l, x.reaction ≠ []) :
    ∃ ls', interactionFilter names firstOnly rt ls = .ok ls' ∧
      List.Forall₂ (fun l' l => l'.Sublist l ∧ ∀ [DecidableEq (FInt ι)] x, l'.count x =
        open Classical in if Survives names firstOnly rt x then l.count x else 0) ls' ls := by
  induction ls with
  | nil => exact ⟨[], rfl, .nil⟩
  | cons l ls ih =>
    obtain ⟨l', e, h1, h2⟩ := filterIntegrals_spec names firstOnly rt l
      (fun k x hx => hne k l (by simp) x hx)
    obtain ⟨ls', e', h'⟩ := ih fun k m hm => hne k m (by simp [hm])
    refine ⟨l' :: ls', ?_, .cons ⟨h1, h2⟩ h'⟩
    rw [interactionFilter, e]; simp only [e']

/-- **C54.** With `first_only=False` no remaining integral involves a named particle; with the default
`first_only=True` no remaining integral is an equation for a named particle. -/
theorem C54_nothing_named_left (names : List String) (firstOnly : Bool) (rt : List (Option ℤ))
    (ls ls' : List (List (FInt ι))) (h : interactionFilter names firstOnly rt ls = .ok ls')
    (hne : firstOnly = true → ∀ l ∈ ls, ∀ x ∈ l, x.reaction ≠ []) :
    ∀ l ∈ ls', ∀ x ∈ l, some (x.reaction.map Prod.snd).sum ∉ rt ∧
      (∀ a, x.reaction.head? = some a → a.1 ∉ names) ∧
      (firstOnly = false → ∀ a ∈ x.reaction, a.1 ∉ names) := by
  classical
  obtain ⟨ls'', e, hf⟩ := C54_filter names firstOnly rt ls hne
  rw [h] at e; cases e
  intro l hl x hx
  obtain ⟨m, hm, _, hc⟩ : ∃ m ∈ ls, l.Sublist m ∧ ∀ [DecidableEq (FInt ι)] x, l.count x =
        if Survives names firstOnly rt x then m.count x else 0 := by
    clear h hne
    induction hf with
    | nil => simp at hl
    | cons hab _ ih =>
      rcases List.mem_cons.mp hl with r | r
      · subst r; exact ⟨_, by simp, hab⟩
      · obtain ⟨m, hm, k⟩ := ih r; exact ⟨m, by simp [hm], k⟩
  have : Survives names firstOnly rt x := by
    by_contra k
    have := hc x
    rw [if_neg k, List.count_eq_zero] at this
    exact this hx
  refine ⟨this.2, ?_, ?_⟩
  · intro a ha
    have k := this.1
    cases firstOnly with
    | true => exact k a ha
    | false => exact k a (List.mem_of_mem_head? ha)
  · intro hfo
    subst hfo
    exact this.1

/-- The default arguments exclude no reaction type. -/
theorem C54_default_keeps (l : List (List (FInt ι))) (hne : ∀ m ∈ l, ∀ x ∈ m, x.reaction ≠ []) :
    interactionFilter [] true [none] l = .ok l := by
  induction l with
  | nil => rfl
  | cons m l ih =>
    rw [interactionFilter]
    have : filterIntegrals [] true [none] m = .ok m := by
      unfold filterIntegrals
      rw [compM_ok _ (fun _ => true)]
      · simp
      · intro x hx
        simp only [if_true, keepFirst]
        have := hne m (by simp) x hx
        cases hr : x.reaction with
        | nil => exact absurd hr this
        | cons a t => simp
    simp only [this, ih fun k hk => hne k (by simp [hk])]

end

example : interactionFilter (ι := ℕ) ["Muon"] false [some 2]
    [[⟨0, [("Muon", -1), ("Electron", 1), ("Neutrino", 1)]⟩,
      ⟨1, [("Electron", -1), ("Neutrino", 1), ("Neutrino", 1), ("Neutrino", 1)]⟩,
      ⟨2, [("Electron", -1), ("Neutrino", -1), ("Electron", 1), ("Neutrino", 1)]⟩], []] =
    .ok [[⟨2, [("Electron", -1), ("Neutrino", -1), ("Electron", 1), ("Neutrino", 1)]⟩], []] := by
  decide

/-! ## C57 -/

theorem sides_sum (l : List ℤ) (h : ∀ s ∈ l, s = 1 ∨ s = -1) :
    l.sum = (l.count 1 : ℤ) - l.count (-1) ∧ l.length = l.count 1 + l.count (-1) := by
  induction l with
  | nil => simp
  | cons a l ih =>
    obtain ⟨h1, h2⟩ := ih fun s hs => h s (by simp [hs])
    rcases h a (by simp) with r | r <;> subst r
    · rw [List.sum_cons, h1, List.length_cons, h2, List.count_cons_self,
        List.count_cons_of_ne (by decide)]
      constructor
      · push_cast; ring
      · omega
    · rw [List.sum_cons, h1, List.length_cons, h2, List.count_cons_self,
        List.count_cons_of_ne (by decide)]
      constructor
      · push_cast; ring
      · omega

/-- **C57 (four particles).** With at least one particle on each side, Python and the extension agree on
the kind of the reaction and both read it off the number of particles on the sides. -/
theorem C57_four (sides : List ℤ) (h : ∀ s ∈ sides, s = 1 ∨ s = -1) (hl : sides.length = 4)
    (hL : -1 ∈ sides) (hR : 1 ∈ sides) :
    (pyDecay sides.sum = true ↔ sides.count (-1) = 1) ∧
    (pyScattering sides.sum = true ↔ sides.count (-1) = 2) ∧
    (pyCreation sides.sum = true ↔ sides.count 1 = 1) ∧
    (kin4 sides = .decay ↔ pyDecay sides.sum = true) ∧
    (kin4 sides = .scattering ↔ pyScattering sides.sum = true) ∧
    (kin4 sides = .creation ↔ pyCreation sides.sum = true) ∧
    kin4 sides ≠ .other := by
  obtain ⟨h1, h2⟩ := sides_sum sides h
  have cL : 0 < sides.count (-1) := List.count_pos_iff.mpr hL
  have cR : 0 < sides.count 1 := List.count_pos_iff.mpr hR
  unfold pyDecay pyScattering pyCreation kin4
  rw [h1]
  rw [hl] at h2
  generalize sides.count (-1) = a at *
  generalize sides.count 1 = b at *
  have ha : a < 4 := by omega
  have hb : b = 4 - a := by omega
  subst hb
  interval_cases a <;> simp at cL cR ⊢

/-- **C57 (three particles).** -/
theorem C57_three (sides : List ℤ) (h : ∀ s ∈ sides, s = 1 ∨ s = -1) (hl : sides.length = 3)
    (hL : -1 ∈ sides) (hR : 1 ∈ sides) :
    (pyDecay sides.sum = true ↔ sides.count (-1) = 1) ∧
    pyScattering sides.sum = false ∧
    (pyCreation sides.sum = true ↔ sides.count 1 = 1) ∧
    (kin3 sides = .decay ↔ pyDecay sides.sum = true) ∧
    (kin3 sides = .creation ↔ pyCreation sides.sum = true) ∧
    kin3 sides ≠ .other := by
  obtain ⟨h1, h2⟩ := sides_sum sides h
  have cL : 0 < sides.count (-1) := List.count_pos_iff.mpr hL
  have cR : 0 < sides.count 1 := List.count_pos_iff.mpr hR
  unfold pyDecay pyScattering pyCreation kin3
  rw [h1]
  rw [hl] at h2
  generalize sides.count (-1) = a at *
  generalize sides.count 1 = b at *
  have ha : a < 3 := by omega
  have hb : b = 3 - a := by omega
  subst hb
  interval_cases a <;> simp at cL cR ⊢

/-- **C57.** Exactly one of the three Python predicates holds for a reaction of three or four particles
with both sides occupied. -/
theorem C57_exactly_one (sides : List ℤ) (h : ∀ s ∈ sides, s = 1 ∨ s = -1)
    (hl : sides.length = 3 ∨ sides.length = 4) (hL : -1 ∈ sides) (hR : 1 ∈ sides) :
    (pyDecay sides.sum = true ∧ pyScattering sides.sum = false ∧ pyCreation sides.sum = false) ∨
    (pyDecay sides.sum = false ∧ pyScattering sides.sum = true ∧ pyCreation sides.sum = false) ∨
    (pyDecay sides.sum = false ∧ pyScattering sides.sum = false ∧ pyCreation sides.sum = true) := by
  obtain ⟨h1, h2⟩ := sides_sum sides h
  have cL : 0 < sides.count (-1) := List.count_pos_iff.mpr hL
  have cR : 0 < sides.count 1 := List.count_pos_iff.mpr hR
  unfold pyDecay pyScattering pyCreation
  rw [h1]
  generalize sides.count (-1) = a at *
  generalize sides.count 1 = b at *
  rcases hl with hl | hl <;> rw [hl] at h2
  · have hb : b = 3 - a := by omega
    have ha : a < 3 := by omega
    subst hb
    interval_cases a <;> simp at cL cR ⊢
  · have hb : b = 4 - a := by omega
    have ha : a < 4 := by omega
    subst hb
    interval_cases a <;> simp at cL cR ⊢

example : kin4 [-1, -1, 1, 1] = .scattering ∧ pyDecay ([-1, 1, 1, 1] : List ℤ).sum = true := by decide

/-! ## C62 -/

section
variable {S : Type*} [DecidableEq S] (A : Attr S)

/-- Specification: number of legs on side `s` carried by the species of the first leg. -/
def sameAsFirst (r : List (Item S)) (s : ℤ) : ℕ :=
  r.countP fun i => i.side = s ∧ (r.head?.map (·.specie)) = some i.specie

theorem countSide_eq (x0 : Item S) (t : List (Item S)) (s : ℤ) :
    countSide (x0 :: t) s x0.specie = sameAsFirst (x0 :: t) s := by
  unfold countSide sameAsFirst
  rw [List.count_eq_countP, List.countP_map, List.countP_filter]
  apply List.countP_congr
  intro i _
  simp only [Function.comp, List.head?_cons, Option.map_some, Option.some.injEq, decide_eq_true_eq,
    Bool.and_eq_true, beq_iff_eq]
  constructor <;> rintro ⟨a, b⟩ <;> exact ⟨by first | exact b | exact b.symm, by first | exact a | exact a.symm⟩

/-- Specification: the correction for identical particles is switched on for the reaction. -/
def MultApplies (charged : Bool) (last : Item S) (r : List (Item S)) : Prop :=
  (∃ i ∈ r, A.name i.specie = "Sterile neutrino (Dirac)") ∨
  ((sumSides r = -1 ∨ sumSides r = -2) ∧ ¬ (A.majorana last.specie = true ∧ charged = true))

open Classical in
/-- **C62 (four particles).** The multiplier of a four-particle integral never fails; it is the number of
occurrences of the first species on the left if this number is 2 (and at most one more occurs on the
right) or 3 (and none on the right) and the correction applies; otherwise it is 1. -/
theorem C62_four (charged : Bool) (x0 x1 x2 x3 : Item S) :
    multiplier4 A charged [x0, x1, x2, x3] = .ok
      (if MultApplies A charged x3 [x0, x1, x2, x3] ∧
          (sameAsFirst [x0, x1, x2, x3] (-1) = 2 ∧ sameAsFirst [x0, x1, x2, x3] 1 ≤ 1 ∨
           sameAsFirst [x0, x1, x2, x3] (-1) = 3 ∧ sameAsFirst [x0, x1, x2, x3] 1 = 0)
        then sameAsFirst [x0, x1, x2, x3] (-1) else 1) := by
  unfold multiplier4
  simp only [countSide_eq]
  generalize sameAsFirst [x0, x1, x2, x3] (-1) = L
  generalize sameAsFirst [x0, x1, x2, x3] 1 = R
  have m1 : hnlName ∈ [x0, x1, x2, x3].map (fun i => A.name i.specie) ↔
      ∃ i ∈ [x0, x1, x2, x3], A.name i.specie = "Sterile neutrino (Dirac)" := by
    simp only [List.mem_map, hnlName]
  have c1 : pyCreation (sumSides [x0, x1, x2, x3]) = true ↔
      (sumSides [x0, x1, x2, x3] = -1 ∨ sumSides [x0, x1, x2, x3] = -2) := by
    unfold pyCreation; exact decide_eq_true_iff
  have tail : (if L = 2 ∧ (R = 0 ∨ R = 1) then (Except.ok 2 : Except Err ℕ)
      else if L = 3 ∧ R = 0 then .ok 3 else .ok 1) =
      .ok (if (L = 2 ∧ R ≤ 1 ∨ L = 3 ∧ R = 0) then L else 1) := by
    split_ifs <;> first | rfl | (congr 1; omega) | omega
  unfold MultApplies
  by_cases hm : hnlName ∈ [x0, x1, x2, x3].map (fun i => A.name i.specie)
  · rw [if_pos hm]
    have : ∀ Q R' : Prop, ((∃ i ∈ [x0, x1, x2, x3], A.name i.specie = "Sterile neutrino (Dirac)") ∨ Q)
        ∧ R' ↔ R' := fun Q R' => ⟨fun k => k.2, fun k => ⟨Or.inl (m1.mp hm), k⟩⟩
    simp only [this]
    exact tail
  · rw [if_neg hm]
    have n1 : ¬ ∃ i ∈ [x0, x1, x2, x3], A.name i.specie = "Sterile neutrino (Dirac)" :=
      fun k => hm (m1.mpr k)
    simp only [n1, false_or]
    by_cases hc : pyCreation (sumSides [x0, x1, x2, x3]) = true
    · rw [if_pos hc]
      simp only [List.getElem?_cons_succ, List.getElem?_cons_zero, c1.mp hc, true_and]
      cases hq : A.majorana x3.specie && charged with
      | true =>
        have : A.majorana x3.specie = true ∧ charged = true := by simpa using hq
        simp [this]
      | false =>
        have : ¬ (A.majorana x3.specie = true ∧ charged = true) := by
          intro k; simp [k] at hq
        simp only [this, not_false_eq_true, true_and, Bool.not_false]
        exact tail
    · rw [if_neg hc]
      have : ¬ (sumSides [x0, x1, x2, x3] = -1 ∨ sumSides [x0, x1, x2, x3] = -2) :=
        fun k => hc (c1.mpr k)
      simp [this]

open Classical in
/-- **C62 (three particles).** -/
theorem C62_three (charged : Bool) (x0 x1 x2 : Item S) :
    multiplier3 A charged [x0, x1, x2] = .ok
      (if MultApplies A charged x2 [x0, x1, x2] ∧
          sameAsFirst [x0, x1, x2] (-1) = 2 ∧ sameAsFirst [x0, x1, x2] 1 = 0
        then 2 else 1) := by
  unfold multiplier3
  simp only [countSide_eq]
  generalize sameAsFirst [x0, x1, x2] (-1) = L
  generalize sameAsFirst [x0, x1, x2] 1 = R
  have m1 : hnlName ∈ [x0, x1, x2].map (fun i => A.name i.specie) ↔
      ∃ i ∈ [x0, x1, x2], A.name i.specie = "Sterile neutrino (Dirac)" := by
    simp only [List.mem_map, hnlName]
  have c1 : pyCreation (sumSides [x0, x1, x2]) = true ↔
      (sumSides [x0, x1, x2] = -1 ∨ sumSides [x0, x1, x2] = -2) := by
    unfold pyCreation; exact decide_eq_true_iff
  have tail : (if L = 2 ∧ R = 0 then (Except.ok 2 : Except Err ℕ) else .ok 1) =
      .ok (if (L = 2 ∧ R = 0) then 2 else 1) := by
    split_ifs <;> rfl
  unfold MultApplies
  by_cases hm : hnlName ∈ [x0, x1, x2].map (fun i => A.name i.specie)
  · rw [if_pos hm]
    have : ∀ Q R' : Prop, ((∃ i ∈ [x0, x1, x2], A.name i.specie = "Sterile neutrino (Dirac)") ∨ Q)
        ∧ R' ↔ R' := fun Q R' => ⟨fun k => k.2, fun k => ⟨Or.inl (m1.mp hm), k⟩⟩
    simp only [this]
    exact tail
  · rw [if_neg hm]
    have n1 : ¬ ∃ i ∈ [x0, x1, x2], A.name i.specie = "Sterile neutrino (Dirac)" :=
      fun k => hm (m1.mpr k)
    simp only [n1, false_or]
    by_cases hc : pyCreation (sumSides [x0, x1, x2]) = true
    · rw [if_pos hc]
      simp only [List.getElem?_cons_succ, List.getElem?_cons_zero, c1.mp hc, true_and]
      cases hq : A.majorana x2.specie && charged with
      | true =>
        have : A.majorana x2.specie = true ∧ charged = true := by simpa using hq
        simp [this]
      | false =>
        have : ¬ (A.majorana x2.specie = true ∧ charged = true) := by
          intro k; simp [k] at hq
        simp only [this, not_false_eq_true, true_and, Bool.not_false]
        exact tail
    · rw [if_neg hc]
      have : ¬ (sumSides [x0, x1, x2] = -1 ∨ sumSides [x0, x1, x2] = -2) :=
        fun k => hc (c1.mpr k)
      simp [this]

/-- **C62.** Values above 1 are the number of identical particles on the left. -/
theorem C62_values (charged : Bool) (x0 x1 x2 x3 : Item S) (n : ℕ)
    (h : multiplier4 A charged [x0, x1, x2, x3] = .ok n) :
    (n = 1 ∨ n = 2 ∨ n = 3) ∧ (1 < n → n = sameAsFirst [x0, x1, x2, x3] (-1)) := by
  classical
  rw [C62_four] at h
  cases h
  split_ifs with k
  · rcases k.2 with k | k <;> omega
  · simp

/-- **C62.** In an allowed creation `A A A → B` (or with the third leg different) the multiplier is the
number of copies of the first species: nothing on the right can coincide with it unless it is the
decaying particle itself. -/
theorem C62_creation (charged : Bool) (x0 x1 x2 x3 : Item S)
    (h0 : x0.side = -1) (h1 : x1.side = -1) (h2 : x2.side = -1) (h3 : x3.side = 1)
    (hne : x3.specie ≠ x0.specie) (hq : charged = false ∨ A.majorana x3.specie = false) :
    multiplier4 A charged [x0, x1, x2, x3] = .ok (sameAsFirst [x0, x1, x2, x3] (-1)) := by
  classical
  rw [C62_four]
  have ap : MultApplies A charged x3 [x0, x1, x2, x3] := by
    refine Or.inr ⟨Or.inr ?_, ?_⟩
    · simp [sumSides, h0, h1, h2, h3]
    · rintro ⟨a, b⟩; rcases hq with q | q
      · rw [q] at b; cases b
      · rw [q] at a; cases a
  have r0 : sameAsFirst [x0, x1, x2, x3] 1 = 0 := by
    unfold sameAsFirst
    simp [h0, h1, h2, h3, List.countP_cons, Ne.symm hne]
  have l1 : 1 ≤ sameAsFirst [x0, x1, x2, x3] (-1) ∧ sameAsFirst [x0, x1, x2, x3] (-1) ≤ 3 := by
    unfold sameAsFirst
    simp only [h0, h1, h2, h3, List.countP_cons, List.countP_nil, List.head?_cons, Option.map_some,
      Option.some.injEq, true_and, decide_true, if_true]
    constructor
    · omega
    · have : ∀ p : Prop, ∀ [Decidable p], (if decide p = true then 1 else 0) ≤ 1 := by
        intro p _; split_ifs <;> omega
      have a1 := this (x0.specie = x1.specie)
      have a2 := this (x0.specie = x2.specie)
      simp only [show ((1 : ℤ) = -1) = False by simp, false_and, decide_false]
      simp only [Bool.false_eq_true, if_false]
      omega
  rw [r0]
  split_ifs with k
  · rfl
  · congr 1
    by_contra hn
    apply k
    exact ⟨ap, by omega⟩

end

/-- Example: two electron neutrinos annihilating into … `ν ν ν̄-like → N`, here species are numbers. -/
example : multiplier4 (S := ℕ) ⟨fun _ => "x", fun _ => 0, fun _ => false⟩ false
    [⟨-1, 7, false, 0, false⟩, ⟨-1, 7, false, 1, false⟩, ⟨-1, 8, false, 2, false⟩,
      ⟨1, 9, false, 3, false⟩] = .ok 2 := by
  rw [C62_creation] <;> first | rfl | decide | exact Or.inl rfl

end PyBBN
