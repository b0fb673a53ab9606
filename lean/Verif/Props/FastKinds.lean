import Verif.Model.FastKinds
import Verif.Props.Secondary
import Mathlib.Tactic
/-!
# C137: kinds of the integrals of fast decaying species
-/
namespace PyBBN

set_option linter.unusedSectionVars false

variable {S : Type*} [DecidableEq S]

/-- The kind which belongs to the integral of a fast decaying species: its decay if it is alone on the left, its creation if one particle
is alone on the right. -/
def KindFits (r : List (Item S)) (k : CKind) : Prop :=
  (k = .fDecay ↔ OneToMany r) ∧ (k = .fCreation ↔ ManyToOne r)

theorem wellFormed_counts (A : Attr S) (p0 p1 : List S) (a0 a1 : List Bool) (h0 : p0.length = a0.length) (h1 : p1.length = a1.length)
    {r : List (Item S)} (hc : IsCrossing A (legs p0 p1 a0 a1) r) (hw : WellFormed A r) :
    sumSides r = ((r.filter (·.side = 1)).length : ℤ) - (r.filter (·.side = -1)).length ∧
      (r.filter (·.side = 1)).length + (r.filter (·.side = -1)).length = p0.length + p1.length ∧
      0 < (r.filter (·.side = 1)).length ∧ 0 < (r.filter (·.side = -1)).length := by
  obtain ⟨s, hp, hf⟩ := hc
  obtain ⟨h, t, R, e, hh, hR, hne, -⟩ := hw
  have hs : ∀ x ∈ r, x.side = -1 ∨ x.side = 1 := by
    intro x hx
    rw [e] at hx
    rcases List.mem_append.mp hx with hx | hx
    · exact Or.inl (hh x hx)
    · exact Or.inr (hR x hx)
  obtain ⟨e1, e2⟩ := item_sides_sum r hs
  have hlen : r.length = p0.length + p1.length := by
    rw [← hf.length_eq, hp.length_eq, legs_length _ _ _ _ h0 h1]
  refine ⟨e1, by omega, ?_, ?_⟩
  · obtain ⟨y, hy⟩ := List.exists_mem_of_ne_nil R hne
    rw [List.length_pos_iff_exists_mem]
    exact ⟨y, List.mem_filter.mpr ⟨by rw [e]; exact List.mem_append_right _ hy, by simpa using hR y hy⟩⟩
  · rw [List.length_pos_iff_exists_mem]
    exact ⟨h, List.mem_filter.mpr ⟨by rw [e]; simp, by simpa using hh h (List.mem_cons_self ..)⟩⟩

/-- **C137 (mesons).** Every integral generated from a declaration of three particles gets a kind; for a fast decaying species it is the
one which belongs to the reaction, for any other species it stays as it was.  Missing from the full statement: the lepton loop, for which
it is false (`C137_leptons_refuted`). -/
theorem C137_hadrons_partial (A : Attr S) (hinj : Function.Injective A.name) (p0 p1 : List S) (a0 a1 : List Bool)
    (h0 : p0.length = a0.length) (h1 : p1.length = a1.length) (h3 : p0.length + p1.length = 3) (fast : S → Bool) (kind : CKind)
    (rs : List (List (Item S))) (hrs : reactionsMap A p0 p1 a0 a1 = .ok rs) (r : List (Item S)) (hr : r ∈ rs) :
    ∃ h t k, r = h :: t ∧ hadronKind fast kind r = .ok k ∧ (fast h.specie = true → KindFits r k) ∧
      (fast h.specie = false → k = kind) := by
  obtain ⟨rs', q, -, q3⟩ := C42_exactly_the_crossings A hinj p0 p1 a0 a1 h0 h1
  rw [q] at hrs
  obtain rfl := Except.ok.inj hrs
  obtain ⟨hc, hw⟩ := (q3 r).mp hr
  obtain ⟨c1, c2, c3, c4⟩ := wellFormed_counts A p0 p1 a0 a1 h0 h1 hc hw
  obtain ⟨h, t, R, e, -⟩ := hw
  refine ⟨h, t ++ R, _, e, by rw [e]; rfl, ?_, ?_⟩
  · intro hf
    rw [← e]
    simp only [hf, if_true]
    unfold KindFits OneToMany ManyToOne pyCreation
    simp only [decide_eq_true_eq, c1]
    split_ifs with g <;> simp <;> omega
  · intro hf
    simp [hf]

/-- **C137 (leptons).** In the lepton loop the kind is right for the creation of a fast decaying species from a heavier particle.
Missing: the other reactions, where it is false (`C137_leptons_refuted`). -/
theorem C137_leptons_partial (A : Attr S) (hinj : Function.Injective A.name) (p0 p1 : List S) (a0 a1 : List Bool)
    (h0 : p0.length = a0.length) (h1 : p1.length = a1.length) (h4 : p0.length + p1.length = 4) (fast : S → Bool) (kind : CKind)
    (rs : List (List (Item S))) (hrs : reactionsMap A p0 p1 a0 a1 = .ok rs) (r : List (Item S)) (hr : r ∈ rs) :
    ∃ h t k, r = h :: t ∧ leptonKind fast kind r = .ok k ∧ (fast h.specie = true → (KindFits r k ↔ ManyToOne r)) ∧
      (fast h.specie = false → k = kind) := by
  obtain ⟨rs', q, -, q3⟩ := C42_exactly_the_crossings A hinj p0 p1 a0 a1 h0 h1
  rw [q] at hrs
  obtain rfl := Except.ok.inj hrs
  obtain ⟨hc, hw⟩ := (q3 r).mp hr
  obtain ⟨c1, c2, c3, c4⟩ := wellFormed_counts A p0 p1 a0 a1 h0 h1 hc hw
  obtain ⟨h, t, R, e, -⟩ := hw
  refine ⟨h, t ++ R, _, e, by rw [e]; rfl, ?_, ?_⟩
  · intro hf
    simp only [hf, if_true]
    unfold KindFits OneToMany ManyToOne
    simp
    omega
  · intro hf
    simp [hf]

/-! ## The decay of the muon into a light heavy neutrino -/

/-- Heavy neutrino of 1 MeV, muon neutrino, muon, electron. -/
noncomputable def muonAttr : Attr (Fin 4) :=
  ⟨!["Sterile neutrino (Dirac)", "Muon neutrino", "Muon", "Electron"], ![1, 0, 105.658, 0.511], ![false, false, false, false]⟩

theorem muonAttr_inj : Function.Injective muonAttr.name := by
  intro a b h
  fin_cases a <;> fin_cases b <;> first | rfl | (exfalso; revert h; simp [muonAttr])

/-- **C137 (refuted for leptons).** From the charged current declared for the muon (NuMSM.py 123–143) the decay `μ → e ν N̄` is generated, it
passes the filter (202–204: the sides of the muon and the heavy neutrino sum to zero), and its kind is that of a creation. -/
theorem C137_leptons_refuted (kind : CKind) : ∃ rs, reactionsMap muonAttr [0, 1] [2, 3] [false, true] [true, false] = .ok rs ∧
    ∃ r ∈ rs, OneToMany r ∧ (r.head?.map (·.specie)) = some 2 ∧
      ((r.filter fun x => x.specie = 0 ∨ x.specie = 2).map (·.side)).sum = 0 ∧
      leptonKind (fun s => decide (s = 2)) kind r = .ok .fCreation ∧ ¬ KindFits r .fCreation := by
  obtain ⟨rs, q1, -, q3⟩ := C42_exactly_the_crossings muonAttr muonAttr_inj [0, 1] [2, 3] [false, true] [true, false] rfl rfl
  refine ⟨rs, q1, [⟨-1, 2, false, 2, true⟩, ⟨1, 3, false, 3, false⟩, ⟨1, 1, false, 1, true⟩, ⟨1, 0, true, 0, true⟩],
    (q3 _).mpr ⟨?_, ?_⟩, by unfold OneToMany; decide, by decide, by decide, rfl, ?_⟩
  · refine ⟨[⟨1, 2, true, 2, false⟩, ⟨1, 3, false, 3, false⟩, ⟨-1, 1, true, 1, false⟩, ⟨-1, 0, false, 0, false⟩], by decide, ?_⟩
    simp [MovedLeg, muonAttr]
  · refine ⟨⟨-1, 2, false, 2, true⟩, [], [⟨1, 3, false, 3, false⟩, ⟨1, 1, false, 1, true⟩, ⟨1, 0, true, 0, true⟩], rfl, by simp, by simp,
      by simp, rfl, by simp, ?_, ?_, by simp⟩
    · simp only [sortKey, muonAttr, Prod.Lex.toLex_le_toLex, List.pairwise_cons, List.mem_cons, List.not_mem_nil, or_false,
        forall_eq_or_imp, forall_eq, false_imp_iff, implies_true, List.Pairwise.nil, and_true, Matrix.cons_val]
      exact ⟨⟨Or.inl (by decide), Or.inl (by decide)⟩, Or.inl (by decide)⟩
    · intro _
      simp only [totalMass, muonAttr, List.map_cons, List.map_nil, List.sum_cons, List.sum_nil, Matrix.cons_val]
      norm_num
  · intro h
    have := h.2.mp rfl
    revert this
    unfold ManyToOne
    decide

/-- The creation of `C` from `Ā`, with `C` fast decaying, gets the kind of creations. -/
example (kind : CKind) : hadronKind (fun s : Fin 3 => decide (s = 2)) kind
    [⟨-1, 2, false, 2, true⟩, ⟨-1, 1, true, 1, true⟩, ⟨1, 0, true, 0, true⟩] = .ok .fCreation := rfl

example (kind : CKind) (rs : List (List (Item (Fin 3)))) (h : reactionsMap demoAttr [0] [1, 2] [false] [false, true] = .ok rs)
    (r : List (Item (Fin 3))) (hr : r ∈ rs) := C137_hadrons_partial demoAttr demoAttr_inj [0] [1, 2] [false] [false, true] rfl rfl rfl
      (fun s => decide (s = 2)) kind rs h r hr

example (kind : CKind) (rs : List (List (Item (Fin 4))))
    (h : reactionsMap muonAttr [0, 1] [2, 3] [false, true] [true, false] = .ok rs) (r : List (Item (Fin 4))) (hr : r ∈ rs) :=
  C137_leptons_partial muonAttr muonAttr_inj [0, 1] [2, 3] [false, true] [true, false] rfl rfl rfl (fun s => decide (s = 2)) kind rs h r hr

end PyBBN
