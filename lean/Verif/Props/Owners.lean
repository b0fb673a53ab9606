import Verif.Props.Library
/-!
# C99: which species of a declared reaction receive collision integrals
-/
namespace PyBBN

set_option linter.unusedSectionVars false

section
variable {S : Type*} [DecidableEq S] (A : LibAttr S)

/-! ## Specification -/

/-- The declaration gives rise to an integral of the species `s`: `s` is the first leg of a generated reaction. -/
def HasIntegral (d : Decl S) (s : S) : Prop :=
  ∃ rs, reactionsMap A.toAttr d.left d.right d.antiL d.antiR = .ok rs ∧ ∃ h t, h :: t ∈ rs ∧ h.specie = s

/-- A leg that can be the first leg of a reaction: a particle on the left; on the right an antiparticle or a particle that
is its own antiparticle. -/
def CanLead (x : Item S) : Prop :=
  (x.side = -1 ∧ x.antiparticle = false) ∨ (x.side = 1 ∧ (A.majorana x.specie = true ∨ x.antiparticle = true))

/-- The species occurs in the declaration but never receives a contribution from it. -/
def Lost (d : Decl S) (s : S) : Prop := s ∈ d.left ++ d.right ∧ ¬ HasIntegral A d s

/-- Every species of the declarations receives an integral from one of them that involves the same species. -/
def Complete (ds : List (Decl S)) : Prop :=
  ∀ d ∈ ds, ∀ s ∈ d.left ++ d.right, ∃ d' ∈ ds, (d'.left ++ d'.right).Perm (d.left ++ d.right) ∧ HasIntegral A d' s

/-! ## Leading legs -/

theorem toSide_anti (x : Item S) (hx : x.side = -1 ∨ x.side = 1) :
    (toSide A.toAttr (-1) x).antiparticle = false ↔ CanLead A x := by
  unfold toSide CanLead
  rcases hx with h | h
  · rw [if_pos h]; simp [h]
  · rw [if_neg (by omega)]
    unfold crossParticle
    cases A.majorana x.specie <;> cases x.antiparticle <;> simp [h]

theorem lead_only (d : Decl S) (h0 : d.left.length = d.antiL.length) (h1 : d.right.length = d.antiR.length)
    (rs : List (List (Item S))) (hrs : reactionsMap A.toAttr d.left d.right d.antiL d.antiR = .ok rs) (h : Item S)
    (t : List (Item S)) (hr : h :: t ∈ rs) :
    ∃ o ∈ legs d.left d.right d.antiL d.antiR, CanLead A o ∧ h = toSide A.toAttr (-1) o := by
  obtain ⟨rs', r1, -, r3⟩ := reactionsMap_mem A.toAttr d.left d.right d.antiL d.antiR h0 h1
  rw [r1] at hrs
  obtain rfl := Except.ok.inj hrs
  obtain ⟨s, i, hp, hi, hro⟩ := (r3 _).mp hr
  have hs : ∀ x ∈ s, x.side = -1 ∨ x.side = 1 := fun x hx => legs_side _ _ _ _ x (hp.mem_iff.mp hx)
  obtain ⟨h', L, R, e1, -, -, -, -, e3⟩ := reactionOf_eq A.toAttr s i hi hs
  rw [e3] at hro
  split_ifs at hro with c1 c2
  · simp at hro
  · simp at hro
  · have e := Option.some.inj (Except.ok.inj hro)
    rw [List.cons_append] at e
    obtain ⟨rfl, -⟩ := List.cons.inj e
    cases s with
    | nil => simp at hi
    | cons o s =>
      rw [List.take_succ_cons, List.map_cons] at e1
      obtain ⟨e1, -⟩ := List.cons.inj e1
      refine ⟨o, hp.subset (List.mem_cons_self ..), ?_, e1.symm⟩
      rw [← toSide_anti A o (hs o (List.mem_cons_self ..)), e1]
      simpa using c1

theorem lead_exists (d : Decl S) (h0 : d.left.length = d.antiL.length) (h1 : d.right.length = d.antiR.length)
    (o : Item S) (T R : List (Item S)) (hp : (o :: (T ++ R)).Perm (legs d.left d.right d.antiL d.antiR)) (hc : CanLead A o)
    (hR : R ≠ []) (m1 : T = [] → (R.map fun x => A.mass x.specie).sum < A.mass o.specie)
    (m2 : ∀ y, R = [y] → ((o :: T).map fun x => A.mass x.specie).sum < A.mass y.specie) : HasIntegral A d o.specie := by
  obtain ⟨rs, r1, -, r3⟩ := reactionsMap_mem A.toAttr d.left d.right d.antiL d.antiR h0 h1
  have hs : ∀ x ∈ o :: (T ++ R), x.side = -1 ∨ x.side = 1 := fun x hx => legs_side _ _ _ _ x (hp.mem_iff.mp hx)
  have hRl : 0 < R.length := List.length_pos_iff.mpr hR
  have hi : T.length + 1 < (o :: (T ++ R)).length := by
    rw [List.length_cons, List.length_append]; omega
  obtain ⟨h, L, R', e1, e2, -, -, -, e3⟩ := reactionOf_eq A.toAttr _ T.length hi hs
  have spec : ∀ (k : ℤ) (x : Item S), (toSide A.toAttr k x).specie = x.specie := by
    intro k x
    unfold toSide crossParticle
    split_ifs <;> rfl
  have mass : ∀ (k : ℤ) (l : List (Item S)), totalMass A.toAttr (l.map (toSide A.toAttr k)) = (l.map fun x => A.mass x.specie).sum := by
    intro k l
    unfold totalMass
    rw [List.map_map]
    congr 1
    exact List.map_congr_left fun x _ => by simp [spec]
  rw [List.take_succ_cons, List.take_left', List.map_cons] at e1
  swap; · rfl
  rw [List.drop_succ_cons, List.drop_left' rfl] at e2
  obtain ⟨rfl, rfl⟩ := List.cons.inj e1
  have ha := (toSide_anti A o (hs o (List.mem_cons_self ..))).mpr hc
  rw [if_neg (by simp [ha]), if_neg] at e3
  · refine ⟨rs, r1, _, _, (r3 _).mpr ⟨_, _, hp, hi, by rw [e3]; rfl⟩, spec _ _⟩
  · rintro (⟨k1, k2⟩ | ⟨y, k1, k2⟩)
    · rw [e2, mass, spec] at k2
      have := m1 (List.map_eq_nil_iff.mp k1)
      linarith
    · rw [k1] at e2
      obtain ⟨z, hz⟩ : ∃ z, R = [z] := by
        have := congrArg List.length e2
        rw [List.length_map, List.length_singleton] at this
        exact List.length_eq_one_iff.mp this.symm
      subst hz
      have hy : y = toSide A.toAttr 1 z := by simpa using e2
      have := m2 z rfl
      rw [hy, spec, ← List.map_cons, mass] at k2
      linarith

/-- **C99 (only these).** A species receives an integral only if one of its legs can lead. -/
theorem C99_only (d : Decl S) (h0 : d.left.length = d.antiL.length) (h1 : d.right.length = d.antiR.length) (s : S)
    (h : HasIntegral A d s) : ∃ o ∈ legs d.left d.right d.antiL d.antiR, o.specie = s ∧ CanLead A o := by
  obtain ⟨rs, hrs, x, t, hr, rfl⟩ := h
  obtain ⟨o, ho, hc, rfl⟩ := lead_only A d h0 h1 rs hrs x t hr
  refine ⟨o, ho, ?_, hc⟩
  unfold toSide crossParticle
  split_ifs <;> rfl

/-- **C99 (four legs).** With at least four legs, the species that receive integrals are exactly those with a leg that can
lead, whatever the masses. -/
theorem C99_four (d : Decl S) (h0 : d.left.length = d.antiL.length) (h1 : d.right.length = d.antiR.length)
    (h4 : 4 ≤ d.left.length + d.right.length) (s : S) :
    HasIntegral A d s ↔ ∃ o ∈ legs d.left d.right d.antiL d.antiR, o.specie = s ∧ CanLead A o := by
  refine ⟨C99_only A d h0 h1 s, ?_⟩
  rintro ⟨o, ho, rfl, hc⟩
  obtain ⟨l, hl⟩ := List.mem_iff_append.mp ho
  obtain ⟨r, hl⟩ := hl
  have hlen := legs_length _ _ _ _ h0 h1
  rw [hl] at hlen
  simp only [List.length_append, List.length_cons] at hlen
  have hp : (o :: (l ++ r)).Perm (legs d.left d.right d.antiL d.antiR) := by
    rw [hl]; exact List.perm_middle.symm
  have hlen' : (l ++ r).length + 1 = d.left.length + d.right.length := by
    rw [List.length_append]; omega
  obtain ⟨x, y, z, w, hw⟩ : ∃ x y z w, l ++ r = x :: y :: z :: w := by
    generalize l ++ r = u at hlen'
    match u, hlen' with
    | x :: y :: z :: w, _ => exact ⟨x, y, z, w, rfl⟩
    | [], h => simp at h; omega
    | [_], h => simp at h; omega
    | [_, _], h => simp at h; omega
  rw [hw] at hp
  exact lead_exists A d h0 h1 o [x] (y :: z :: w) hp hc (by simp) (by simp) (by simp)

/-- **C99 (decay).** For a two-body decay that is kinematically open: the parent has its decay integral iff it is declared as
a particle, a product has its creation integral iff it is declared as an antiparticle or is its own antiparticle. -/
theorem C99_decay (p x y : S) (a0 a1 a2 : Bool) (amp : Amp) (hm : A.mass x + A.mass y < A.mass p) (s : S) :
    HasIntegral A ⟨[p], [x, y], [a0], [a1, a2], amp⟩ s ↔
      (s = p ∧ a0 = false) ∨ (s = x ∧ (a1 = true ∨ A.majorana x = true)) ∨ (s = y ∧ (a2 = true ∨ A.majorana y = true)) := by
  have hl : legs [p] [x, y] [a0] [a1, a2] = [⟨-1, p, a0, 0, false⟩, ⟨1, x, a1, 1, false⟩, ⟨1, y, a2, 2, false⟩] := rfl
  constructor
  · intro h
    obtain ⟨o, ho, rfl, hc⟩ := C99_only A _ rfl rfl s h
    dsimp only at ho
    rw [hl] at ho
    simp only [List.mem_cons, List.not_mem_nil, or_false] at ho
    rcases ho with rfl | rfl | rfl <;> simp [CanLead] at hc
    · exact Or.inl ⟨rfl, hc⟩
    · exact Or.inr (Or.inl ⟨rfl, hc.symm⟩)
    · exact Or.inr (Or.inr ⟨rfl, hc.symm⟩)
  · rintro (⟨rfl, h⟩ | ⟨rfl, h⟩ | ⟨rfl, h⟩)
    · refine lead_exists A ⟨[s], [x, y], [a0], [a1, a2], amp⟩ rfl rfl ⟨-1, s, a0, 0, false⟩ []
        [⟨1, x, a1, 1, false⟩, ⟨1, y, a2, 2, false⟩] ?_ (Or.inl ⟨rfl, h⟩) (by simp) ?_ ?_
      · exact List.Perm.refl _
      · intro _; simpa using hm
      · intro y h; simp at h
    · refine lead_exists A ⟨[p], [s, y], [a0], [a1, a2], amp⟩ rfl rfl ⟨1, s, a1, 1, false⟩ [⟨1, y, a2, 2, false⟩]
        [⟨-1, p, a0, 0, false⟩] ?_ (Or.inr ⟨rfl, h.symm⟩) (by simp) (by simp) ?_
      · exact List.perm_append_comm (l₁ := [(⟨1, s, a1, 1, false⟩ : Item S), ⟨1, y, a2, 2, false⟩])
          (l₂ := [⟨-1, p, a0, 0, false⟩])
      · intro z hz
        obtain rfl := List.singleton_inj.mp hz
        simpa using hm
    · refine lead_exists A ⟨[p], [x, s], [a0], [a1, a2], amp⟩ rfl rfl ⟨1, s, a2, 2, false⟩ [⟨1, x, a1, 1, false⟩]
        [⟨-1, p, a0, 0, false⟩] ?_ (Or.inr ⟨rfl, h.symm⟩) (by simp) (by simp) ?_
      · exact (List.reverse_perm [(⟨-1, p, a0, 0, false⟩ : Item S), ⟨1, x, a1, 1, false⟩, ⟨1, s, a2, 2, false⟩])
      · intro z hz
        obtain rfl := List.singleton_inj.mp hz
        simp only [List.map_cons, List.map_nil, List.sum_cons, List.sum_nil]
        linarith

/-- **C99 (two to two).** The same for `p₀ p₁ → p₂ p₃`. -/
theorem C99_two_two (p0 p1 p2 p3 : S) (a0 a1 a2 a3 : Bool) (amp : Amp) (s : S) :
    HasIntegral A ⟨[p0, p1], [p2, p3], [a0, a1], [a2, a3], amp⟩ s ↔
      (s = p0 ∧ a0 = false) ∨ (s = p1 ∧ a1 = false) ∨ (s = p2 ∧ (a2 = true ∨ A.majorana p2 = true)) ∨
        (s = p3 ∧ (a3 = true ∨ A.majorana p3 = true)) := by
  rw [C99_four A _ rfl rfl (by simp) s]
  have hl : legs [p0, p1] [p2, p3] [a0, a1] [a2, a3] =
    [⟨-1, p0, a0, 0, false⟩, ⟨-1, p1, a1, 1, false⟩, ⟨1, p2, a2, 2, false⟩, ⟨1, p3, a3, 3, false⟩] := rfl
  dsimp only
  rw [hl]
  simp only [List.mem_cons, List.not_mem_nil, or_false, exists_eq_or_imp, exists_eq_left, CanLead]
  simp only [true_and, or_false, false_or, show ¬ ((1 : ℤ) = -1) by decide, show ¬ ((-1 : ℤ) = 1) by decide,
    false_and]
  constructor
  · rintro (⟨rfl, h⟩ | ⟨rfl, h⟩ | ⟨rfl, h⟩ | ⟨rfl, h⟩) <;> tauto
  · rintro (⟨rfl, h⟩ | ⟨rfl, h⟩ | ⟨rfl, h⟩ | ⟨rfl, h⟩) <;> tauto

/-! ## The declarations of the library -/

variable (c : LibConst) (ME : String → ℝ) (m : Chain S)

/-- **C99 (complete).** The neutrino reactions, the pion decays and the decays of the heavy neutrino into mesons and leptons
give every participating species its integral: the charge conjugate reactions are declared too. -/
theorem C99_neutrino_complete (leptons neutrinos : List S) : Complete A (neutrinoInteractions A c leptons neutrinos) := by
  intro d hd s hs
  refine ⟨d, hd, List.Perm.refl _, ?_⟩
  simp only [neutrinoInteractions, List.mem_append, List.mem_map, List.mem_flatMap] at hd
  rcases hd with ⟨x, -, rfl⟩ | ⟨l, -, n, -, rfl⟩
  · unfold neutrinoScattering
    rw [C99_two_two]
    simp [neutrinoScattering] at hs
    tauto
  · unfold neutrinosToLeptons
    rw [C99_two_two]
    simp [neutrinosToLeptons] at hs
    tauto

theorem pair_complete (p x y : S) (a1 a2 : Bool) (k1 k2 : Amp) (hm : A.mass x + A.mass y < A.mass p)
    (b1 b2 : Bool) (hb1 : b1 = !a1)
    (hb2 : b2 = !a2 ∨ A.majorana y = true) :
    Complete A [⟨[p], [x, y], [false], [a1, a2], k1⟩, ⟨[p], [x, y], [true], [b1, b2], k2⟩] := by
  intro d hd s hs
  have hs' : s ∈ [p, x, y] := by
    simp only [List.mem_cons, List.not_mem_nil, or_false] at hd
    rcases hd with rfl | rfl <;> simpa using hs
  have hp : (d.left ++ d.right) = [p, x, y] := by
    simp only [List.mem_cons, List.not_mem_nil, or_false] at hd
    rcases hd with rfl | rfl <;> rfl
  rw [hp]
  have key : ∀ d' ∈ [(⟨[p], [x, y], [false], [a1, a2], k1⟩ : Decl S), ⟨[p], [x, y], [true], [b1, b2], k2⟩],
      HasIntegral A d' s → ∃ d' ∈ [(⟨[p], [x, y], [false], [a1, a2], k1⟩ : Decl S), ⟨[p], [x, y], [true], [b1, b2], k2⟩],
        (d'.left ++ d'.right).Perm [p, x, y] ∧ HasIntegral A d' s := by
    intro d' hd' h
    refine ⟨d', hd', ?_, h⟩
    simp only [List.mem_cons, List.not_mem_nil, or_false] at hd'
    rcases hd' with rfl | rfl <;> exact List.Perm.refl _
  simp only [List.mem_cons, List.not_mem_nil, or_false] at hs'
  rcases hs' with rfl | rfl | rfl
  · exact key _ (List.mem_cons_self ..) ((C99_decay A _ _ _ _ _ _ _ hm _).mpr (Or.inl ⟨rfl, rfl⟩))
  · cases a1
    · exact key _ (List.mem_cons_of_mem _ (List.mem_cons_self ..))
        ((C99_decay A _ _ _ _ _ _ _ hm _).mpr (Or.inr (Or.inl ⟨rfl, Or.inl (by simp [hb1])⟩)))
    · exact key _ (List.mem_cons_self ..) ((C99_decay A _ _ _ _ _ _ _ hm _).mpr (Or.inr (Or.inl ⟨rfl, Or.inl rfl⟩)))
  · by_cases hy : A.majorana s = true
    · exact key _ (List.mem_cons_self ..) ((C99_decay A _ _ _ _ _ _ _ hm _).mpr (Or.inr (Or.inr ⟨rfl, Or.inr hy⟩)))
    · have hb2 := hb2.resolve_right hy
      cases a2
      · exact key _ (List.mem_cons_of_mem _ (List.mem_cons_self ..))
          ((C99_decay A _ _ _ _ _ _ _ hm _).mpr (Or.inr (Or.inr ⟨rfl, Or.inl (by simp [hb2])⟩)))
      · exact key _ (List.mem_cons_self ..) ((C99_decay A _ _ _ _ _ _ _ hm _).mpr (Or.inr (Or.inr ⟨rfl, Or.inl rfl⟩)))

/-- **C99 (complete, pions).** -/
theorem C99_pion_complete (meson lepton neutrino : S) (hm : A.mass lepton + A.mass neutrino < A.mass meson) :
    Complete A (decayChargedPion A c meson lepton neutrino) :=
  pair_complete A meson lepton neutrino _ _ _ _ hm _ _ rfl (Or.inl rfl)

/-- **C99 (complete, leptons).** The charged-current reactions of leptons come in pairs. -/
theorem C99_lepton_complete (leptons neutrinos : List S) : Complete A (leptonInteractions A c leptons neutrinos) := by
  intro d hd s hs
  simp only [leptonInteractions, List.mem_flatMap] at hd
  obtain ⟨l, hl, n, hn, hd⟩ := hd
  split_ifs at hd with h1
  swap; · simp at hd
  simp only [List.mem_flatMap, List.mem_filter, decide_eq_true_eq] at hd
  obtain ⟨l', ⟨hl', e1⟩, n', ⟨hn', e2⟩, hd⟩ := hd
  split_ifs at hd with h2
  swap; · simp at hd
  rw [List.mem_singleton] at hd
  subst hd
  have m1 : leptonsCC c n n' l l' ∈ leptonInteractions A c leptons neutrinos := by
    simp only [leptonInteractions, List.mem_flatMap]
    refine ⟨l, hl, n, hn, ?_⟩
    rw [if_pos h1]
    simp only [List.mem_flatMap, List.mem_filter, decide_eq_true_eq]
    exact ⟨l', ⟨hl', e1⟩, n', ⟨hn', e2⟩, by rw [if_pos h2]; exact List.mem_singleton.mpr rfl⟩
  have m2 : leptonsCC c n' n l' l ∈ leptonInteractions A c leptons neutrinos := by
    simp only [leptonInteractions, List.mem_flatMap]
    refine ⟨l', hl', n', hn', ?_⟩
    rw [if_pos h1]
    simp only [List.mem_flatMap, List.mem_filter, decide_eq_true_eq]
    exact ⟨l, ⟨hl, Ne.symm e1⟩, n, ⟨hn, Ne.symm e2⟩, by rw [if_pos ⟨h2.2, h2.1⟩]; exact List.mem_singleton.mpr rfl⟩
  have p2 : ([l', l] ++ [n', n]).Perm ([l, l'] ++ [n, n']) := (List.Perm.swap _ _ _).append (List.Perm.swap _ _ _)
  have hs' : s = l ∨ s = l' ∨ s = n ∨ s = n' := by simpa [leptonsCC] using hs
  rcases hs' with rfl | rfl | rfl | rfl
  · exact ⟨_, m1, List.Perm.refl _, (C99_two_two A _ _ _ _ _ _ _ _ _ _).mpr (Or.inl ⟨rfl, rfl⟩)⟩
  · exact ⟨_, m2, p2, (C99_two_two A _ _ _ _ _ _ _ _ _ _).mpr (Or.inl ⟨rfl, rfl⟩)⟩
  · exact ⟨_, m2, p2, (C99_two_two A _ _ _ _ _ _ _ _ _ _).mpr (Or.inr (Or.inr (Or.inr ⟨rfl, Or.inl rfl⟩)))⟩
  · exact ⟨_, m1, List.Perm.refl _, (C99_two_two A _ _ _ _ _ _ _ _ _ _).mpr (Or.inr (Or.inr (Or.inr ⟨rfl, Or.inl rfl⟩)))⟩

/-- **C99 (complete, heavy neutrino and leptons).** -/
theorem C99_sterile_complete (θ gL : ℝ) (N a b l l' : S) :
    Complete A (sterileScattering c θ N a b) ∧ Complete A (sterileNC c θ gL N a l) ∧ Complete A (sterileCC c θ N a l l') := by
  refine ⟨?_, ?_, ?_⟩
  · intro d hd s hs
    have hs' : s = N ∨ s = a ∨ s = b := by
      simp only [sterileScattering, List.mem_cons, List.not_mem_nil, or_false] at hd
      rcases hd with rfl | rfl <;> simp at hs <;> tauto
    have p : ([N, b] ++ [a, b]).Perm (d.left ++ d.right) ∧ ([a, b] ++ [N, b]).Perm (d.left ++ d.right) := by
      simp only [sterileScattering, List.mem_cons, List.not_mem_nil, or_false] at hd
      rcases hd with rfl | rfl
      · exact ⟨List.Perm.refl _, List.perm_append_comm⟩
      · exact ⟨List.perm_append_comm, List.Perm.refl _⟩
    unfold sterileScattering
    rcases hs' with rfl | rfl | rfl
    · exact ⟨_, List.mem_cons_self .., p.1, (C99_two_two A _ _ _ _ _ _ _ _ _ _).mpr (Or.inl ⟨rfl, rfl⟩)⟩
    · exact ⟨_, List.mem_cons_of_mem _ (List.mem_cons_self ..), p.2, (C99_two_two A _ _ _ _ _ _ _ _ _ _).mpr (Or.inl ⟨rfl, rfl⟩)⟩
    · exact ⟨_, List.mem_cons_self .., p.1, (C99_two_two A _ _ _ _ _ _ _ _ _ _).mpr (Or.inr (Or.inl ⟨rfl, rfl⟩))⟩
  · intro d hd s hs
    have hd' : d.left = [N, a] ∧ d.right = [l, l] := by
      simp only [sterileNC, List.map_cons, List.map_nil, List.mem_cons, List.not_mem_nil, or_false] at hd
      rcases hd with rfl | rfl <;> exact ⟨rfl, rfl⟩
    rw [hd'.1, hd'.2] at hs ⊢
    have hs' : s = N ∨ s = a ∨ s = l := by simpa using hs
    unfold sterileNC
    rcases hs' with rfl | rfl | rfl
    · exact ⟨_, List.mem_cons_self .., List.Perm.refl _, (C99_two_two A _ _ _ _ _ _ _ _ _ _).mpr (Or.inl ⟨rfl, rfl⟩)⟩
    · exact ⟨_, List.mem_cons_of_mem _ (List.mem_cons_self ..), List.Perm.refl _,
        (C99_two_two A _ _ _ _ _ _ _ _ _ _).mpr (Or.inr (Or.inl ⟨rfl, rfl⟩))⟩
    · exact ⟨_, List.mem_cons_self .., List.Perm.refl _,
        (C99_two_two A _ _ _ _ _ _ _ _ _ _).mpr (Or.inr (Or.inr (Or.inl ⟨rfl, Or.inl rfl⟩)))⟩
  · intro d hd s hs
    have p : ([N, a] ++ [l', l]).Perm (d.left ++ d.right) ∧ ([a, N] ++ [l, l']).Perm (d.left ++ d.right) := by
      simp only [sterileCC, List.map_cons, List.map_nil, List.mem_cons, List.not_mem_nil, or_false] at hd
      rcases hd with rfl | rfl
      · exact ⟨List.Perm.refl _, (List.Perm.swap _ _ _).append (List.Perm.swap _ _ _)⟩
      · exact ⟨(List.Perm.swap _ _ _).append (List.Perm.swap _ _ _), List.Perm.refl _⟩
    have hs' : s = N ∨ s = a ∨ s = l' ∨ s = l := by
      have := p.1.symm.subset hs
      simpa using this
    unfold sterileCC
    rcases hs' with rfl | rfl | rfl | rfl
    · exact ⟨_, List.mem_cons_self .., p.1, (C99_two_two A _ _ _ _ _ _ _ _ _ _).mpr (Or.inl ⟨rfl, rfl⟩)⟩
    · exact ⟨_, List.mem_cons_of_mem _ (List.mem_cons_self ..), p.2, (C99_two_two A _ _ _ _ _ _ _ _ _ _).mpr (Or.inl ⟨rfl, rfl⟩)⟩
    · exact ⟨_, List.mem_cons_self .., p.1, (C99_two_two A _ _ _ _ _ _ _ _ _ _).mpr (Or.inr (Or.inr (Or.inl ⟨rfl, Or.inl rfl⟩)))⟩
    · exact ⟨_, List.mem_cons_of_mem _ (List.mem_cons_self ..), p.2,
        (C99_two_two A _ _ _ _ _ _ _ _ _ _).mpr (Or.inr (Or.inr (Or.inl ⟨rfl, Or.inl rfl⟩)))⟩

/-- **C99 (complete, heavy neutrino and mesons).** When the decay is open; a neutral meson is its own antiparticle. -/
theorem C99_sterile_meson_complete (θ : ℝ) (N x y : S) (hm : A.mass x + A.mass y < A.mass N) :
    (A.majorana y = true → Complete A (neutralScalar A c θ N x y)) ∧
      (A.majorana y = true → ∀ ds, neutralVector A c θ N x y = some ds → Complete A ds) ∧
      Complete A (chargedScalar A c θ N x y) ∧ Complete A (chargedVector A c θ N x y) := by
  refine ⟨fun h => ?_, fun h ds hd => ?_, ?_, ?_⟩
  · exact pair_complete A N x y _ _ _ _ hm _ _ rfl (Or.inr h)
  · obtain ⟨κ, -, rfl⟩ := Option.map_eq_some_iff.mp hd
    exact pair_complete A N x y _ _ _ _ hm _ _ rfl (Or.inr h)
  · exact pair_complete A N x y _ _ _ _ hm _ _ rfl (Or.inl rfl)
  · exact pair_complete A N x y _ _ _ _ hm _ _ rfl (Or.inl rfl)

/-- **C99 (lost in the quark channels).** In the decays of the heavy neutrino into quarks only one of the two charge
conjugate reactions is declared: the active neutrino, or the lepton and the up quark, receive nothing. -/
theorem C99_quarks_refuted (θ : ℝ) (N a l u d : S) (h1 : A.majorana u = false) (n1 : a ≠ N) (n2 : l ≠ N) (n3 : u ≠ N)
    (n4 : a ≠ u) (n5 : l ≠ d) (n6 : u ≠ d) (n7 : l ≠ u) :
    (∀ e, sterileQuarkNC A c θ N a u = some e → Lost A e a) ∧
      Lost A (sterileQuarkCC A c θ N l u d) l ∧ Lost A (sterileQuarkCC A c θ N l u d) u := by
  refine ⟨fun e he => ?_, ⟨by simp [sterileQuarkCC], ?_⟩, ⟨by simp [sterileQuarkCC], ?_⟩⟩
  · obtain ⟨g, -, rfl⟩ := Option.map_eq_some_iff.mp he
    refine ⟨by simp, ?_⟩
    rw [C99_two_two]
    simp [n1, n4]
  · unfold sterileQuarkCC
    rw [C99_two_two]
    simp [n2, n5, n7]
  · unfold sterileQuarkCC
    rw [C99_two_two]
    simp [n3, n6, n7.symm, h1]

/-- The charged particles of the chains are different from the others and not their own antiparticles. -/
structure ChargedApart (m : Chain S) : Prop where
  major : ∀ s ∈ [m.pi, m.muonP, m.electron], A.majorana s = false
  apart : ∀ s ∈ [m.pi, m.muonP, m.electron], s ∉ [m.photon, m.nuE, m.nuMu, m.pi0, m.kaon, m.kaonL, m.kaonS, m.eta, m.rho0, m.rho,
    m.omega, m.etaP, m.phi]
  pi_mu : m.pi ≠ m.muonP
  pi_e : m.pi ≠ m.electron
  mu_e : m.muonP ≠ m.electron

/-- **C99 (no leptons from kaons).** Whatever the primary mesons, muons receive integrals from no meson decay other than that
of the charged pion, and electrons from none: what kaons lose in `K → μ ν`, `K → π⁰ e ν`, `K_L → π e ν`, `K_L → π μ ν` never
arrives. -/
theorem C99_leptons_refuted (ha : ChargedApart A m) (primary : List Meson) :
    ∀ d ∈ mesonInteractions A c ME m primary, d ∉ leptonInteractions A c m.leptons m.neutrinos →
      (HasIntegral A d m.muonP → d ∈ decayChargedPion A c m.pi m.muonP m.nuMu) ∧ ¬ HasIntegral A d m.electron := by
  obtain ⟨h1, h2, h3, h4, h5⟩ := ha
  simp only [List.forall_mem_cons] at h1 h2
  simp only [List.mem_cons, List.not_mem_nil, or_false, not_or] at h2
  obtain ⟨f1, f2, f3, -⟩ := h1
  obtain ⟨g1, g2, g3, -⟩ := h2
  have k3 := h3.symm
  have k4 := h4.symm
  have k5 := h5.symm
  have n3 : ∀ (s p x y : S) (a1 a2 : Bool) (amp : Amp), s ≠ p → (s = x → a1 = false ∧ A.majorana x = false) →
      (s = y → a2 = false ∧ A.majorana y = false) → ¬ HasIntegral A ⟨[p], [x, y], [false], [a1, a2], amp⟩ s := by
    intro s p x y a1 a2 amp e1 e2 e3 h
    obtain ⟨o, ho, rfl, hc⟩ := C99_only A _ rfl rfl s h
    have hl : legs [p] [x, y] [false] [a1, a2] = [⟨-1, p, false, 0, false⟩, ⟨1, x, a1, 1, false⟩, ⟨1, y, a2, 2, false⟩] := rfl
    dsimp only at ho
    rw [hl] at ho
    simp only [List.mem_cons, List.not_mem_nil, or_false] at ho
    rcases ho with rfl | rfl | rfl
    · exact e1 rfl
    · have := e2 rfl; simp [CanLead, this] at hc
    · have := e3 rfl; simp [CanLead, this] at hc
  refine chain_all A c ME m _ ?_ ?_ ?_ ?_ ?_ ?_ primary
  · exact fun d hd hn => absurd hd hn
  · intro d hd _
    refine ⟨fun _ => hd, ?_⟩
    simp only [decayChargedPion, List.map_cons, List.map_nil, List.mem_cons, List.not_mem_nil, or_false] at hd
    rcases hd with rfl | rfl
    · exact n3 _ _ _ _ _ _ _ k4 (fun h => absurd h k5) (fun h => absurd h g3.2.2.1)
    · intro h
      obtain ⟨o, ho, ho', hc⟩ := C99_only A _ rfl rfl _ h
      have hl : legs [m.pi] [m.muonP, m.nuMu] [true] [true, false] =
        [⟨-1, m.pi, true, 0, false⟩, ⟨1, m.muonP, true, 1, false⟩, ⟨1, m.nuMu, false, 2, false⟩] := rfl
      dsimp only at ho
      rw [hl] at ho
      simp only [List.mem_cons, List.not_mem_nil, or_false] at ho
      rcases ho with rfl | rfl | rfl
      · exact h4 ho'
      · exact h5 ho'
      · exact g3.2.2.1 ho'.symm
  · intro d hd _
    simp only [decayNeutralPion, List.mem_singleton] at hd
    subst hd
    constructor
    · intro h
      refine absurd h (n3 _ _ _ _ _ _ _ ?_ ?_ ?_) <;> simp [*]
    · refine n3 _ _ _ _ _ _ _ ?_ ?_ ?_ <;> simp [*]
  · simp only [List.forall_mem_cons]
    refine ⟨?_, ?_, ?_, ?_, ?_, ?_, ?_, ?_, by simp⟩ <;> (intro _; simp [C99_two_two, *])
  · simp only [List.forall_mem_cons]
    refine ⟨?_, ?_, ?_, ?_, by simp⟩ <;> (intro _; simp [C99_two_two, *])
  · simp only [List.forall_mem_cons]
    refine ⟨?_, ?_, ?_, ?_, ?_, ?_, ?_, ?_, ?_, ?_, ?_, ?_, by simp⟩ <;>
      (intro _
       constructor
       · intro h
         refine absurd h (n3 _ _ _ _ _ _ _ ?_ ?_ ?_) <;> simp [*]
       · refine n3 _ _ _ _ _ _ _ ?_ ?_ ?_ <;> simp [*])

/-- **C99 (charged pions).** Charged pions receive nothing from `K → π π⁰`, `K → 3 π`, `K_L → π e ν`, `K_L → π μ ν`,
`ρ → π π⁰` and `ω → 3 π`. -/
theorem C99_pions_refuted (ha : ChargedApart A m) (K : ℝ) :
    (∀ d ∈ threeMeson m.kaon m.pi m.pi0 false false false K, Lost A d m.pi) ∧
    (∀ d ∈ fourMeson m.kaon m.pi m.pi m.pi false true false false K, Lost A d m.pi) ∧
    (∀ d ∈ fourMeson m.kaonL m.pi m.electron m.nuE false true false true K, Lost A d m.pi) ∧
    (∀ d ∈ fourMeson m.kaonL m.pi m.muonP m.nuMu false true false true K, Lost A d m.pi) ∧
    (∀ d ∈ threeMeson m.rho m.pi m.pi0 false false false K, Lost A d m.pi) ∧
    (∀ d ∈ fourMeson m.omega m.pi m.pi m.pi0 false true false false K, Lost A d m.pi) := by
  obtain ⟨h1, h2, h3, h4, h5⟩ := ha
  simp only [List.forall_mem_cons] at h1 h2
  simp only [List.mem_cons, List.not_mem_nil, or_false, not_or] at h2
  obtain ⟨f1, f2, f3, -⟩ := h1
  obtain ⟨g1, g2, g3, -⟩ := h2
  have n3 : ∀ (s p x y : S) (a1 a2 : Bool) (amp : Amp), s ≠ p → (s = x → a1 = false ∧ A.majorana x = false) →
      (s = y → a2 = false ∧ A.majorana y = false) → ¬ HasIntegral A ⟨[p], [x, y], [false], [a1, a2], amp⟩ s := by
    intro s p x y a1 a2 amp e1 e2 e3 h
    obtain ⟨o, ho, rfl, hc⟩ := C99_only A _ rfl rfl s h
    have hl : legs [p] [x, y] [false] [a1, a2] = [⟨-1, p, false, 0, false⟩, ⟨1, x, a1, 1, false⟩, ⟨1, y, a2, 2, false⟩] := rfl
    dsimp only at ho
    rw [hl] at ho
    simp only [List.mem_cons, List.not_mem_nil, or_false] at ho
    rcases ho with rfl | rfl | rfl
    · exact e1 rfl
    · have := e2 rfl; simp [CanLead, this] at hc
    · have := e3 rfl; simp [CanLead, this] at hc
  simp only [threeMeson, fourMeson, List.mem_singleton, forall_eq]
  refine ⟨⟨by simp, ?_⟩, ⟨by simp, ?_⟩, ⟨by simp, ?_⟩, ⟨by simp, ?_⟩, ⟨by simp, ?_⟩, ⟨by simp, ?_⟩⟩
  · refine n3 _ _ _ _ _ _ _ ?_ ?_ ?_ <;> simp [*]
  · simp [C99_two_two, *]
  · simp [C99_two_two, *]
  · simp [C99_two_two, *]
  · refine n3 _ _ _ _ _ _ _ ?_ ?_ ?_ <;> simp [*]
  · simp [C99_two_two, *]

/-- Had the flags of `K → 3 π` been right (`K⁻ π⁻ → π⁻ π⁻`, crossed), the pions would receive integrals. -/
example (amp : Amp) : HasIntegral A ⟨[m.kaon, m.pi], [m.pi, m.pi], [false, false], [false, false], amp⟩ m.pi := by
  rw [C99_two_two]; simp

end

/-- The shipped templates. -/
theorem tmpl_apart (MeV : ℝ) (mN : ℚ) (leptons neutrinos : List Tmpl) (muon : ℕ) :
    ChargedApart (tmplAttr MeV mN) (tmplChain leptons neutrinos muon) := by
  refine ⟨?_, ?_, by simp [tmplChain], by simp [tmplChain], by simp [tmplChain]⟩
  · intro s hs
    simp only [tmplChain, List.mem_cons, List.not_mem_nil, or_false] at hs
    rcases hs with rfl | rfl | rfl <;> rfl
  · intro s hs
    simp only [tmplChain, List.mem_cons, List.not_mem_nil, or_false] at hs
    rcases hs with rfl | rfl | rfl <;> simp [tmplChain]

/-- The decay of a kaon into muons is declared, and the muons receive nothing from it. -/
example (MeV : ℝ) (hMeV : 0 < MeV) (mN : ℚ) (c : LibConst) (ME : String → ℝ) (leptons neutrinos : List Tmpl) (muon : ℕ) :
    ∃ d ∈ mesonInteractions (tmplAttr MeV mN) c ME (tmplChain leptons neutrinos muon) [.kaon],
      HasIntegral (tmplAttr MeV mN) d .kaon ∧ Lost (tmplAttr MeV mN) d .muon := by
  refine ⟨_, meson_adds (tmplAttr MeV mN) c ME (tmplChain leptons neutrinos muon) [.kaon] .kaon (by simp)
    ⟨[.kaon], [.muon, .nuMu], [false], [false, true], .three (ME "KaonMinMuonNumu")⟩ ?_, ?_, by simp, ?_⟩
  · intro l
    simp [mesonDecay, kaonDecay, threeMeson, tmplChain]
  · rw [C99_decay _ _ _ _ _ _ _ _ (by simp only [tmplAttr, Tmpl.mass]; norm_num; nlinarith)]
    simp
  · rw [C99_decay _ _ _ _ _ _ _ _ (by simp only [tmplAttr, Tmpl.mass]; norm_num; nlinarith)]
    simp [tmplAttr, Tmpl.majorana]

end PyBBN
