import Verif.Model.Secondary
import Verif.Props.Chains
import Verif.Props.FastDecay
import Verif.Props.Universe
import Verif.Model.Templates
/-!
# C110: the interactions of the decay products
-/
namespace PyBBN

set_option linter.unusedSectionVars false

section
variable {S : Type*} [DecidableEq S] {A : LibAttr S} (c : LibConst) (ME : String → ℝ) {m : Chain S}

/-! ## Specification -/

/-- A reaction of one particle, `one`, into (`out`) or from several others. -/
def OneToMany (r : List (Item S)) : Prop := (r.filter (·.side = -1)).length = 1
def ManyToOne (r : List (Item S)) : Prop := (r.filter (·.side = 1)).length = 1

/-- A particle of that name comes out of one of the reactions. -/
def ComesOut (A : LibAttr S) (prim : List (List (Item S))) (name : String) : Prop :=
  ∃ r ∈ prim, ∃ x ∈ r, x.side = 1 ∧ A.name x.specie = name

theorem produced_iff (prim : List (List (Item S))) (name : String) :
    produced A prim name ≠ 0 ↔ ComesOut A prim name := by
  unfold produced ComesOut
  rw [Nat.ne_zero_iff_zero_lt, List.countP_pos_iff]
  simp only [List.mem_filter, List.mem_flatten, decide_eq_true_eq]
  constructor
  · rintro ⟨x, ⟨⟨r, hr, hx⟩, hs⟩, hn⟩
    exact ⟨r, hr, x, hx, hs, hn⟩
  · rintro ⟨r, hr, x, hx, hs, hn⟩
    exact ⟨x, ⟨⟨r, hr, hx⟩, hs⟩, hn⟩

theorem item_sides_sum (r : List (Item S)) (hs : ∀ x ∈ r, x.side = -1 ∨ x.side = 1) :
    (r.map (·.side)).sum = ((r.filter (·.side = 1)).length : ℤ) - (r.filter (·.side = -1)).length ∧
      (r.filter (·.side = 1)).length + (r.filter (·.side = -1)).length = r.length := by
  induction r with
  | nil => simp
  | cons x r ih =>
    obtain ⟨i1, i2⟩ := ih fun y hy => hs y (List.mem_cons_of_mem _ hy)
    rw [List.map_cons, List.sum_cons, i1]
    rcases hs x (List.mem_cons_self ..) with h | h
    · rw [List.filter_cons_of_neg (by simp [h]), List.filter_cons_of_pos (by simp [h]), h]
      simp only [List.length_cons]
      constructor
      · push_cast; ring
      · omega
    · rw [List.filter_cons_of_pos (by simp [h]), List.filter_cons_of_neg (by simp [h]), h]
      simp only [List.length_cons]
      constructor
      · push_cast; ring
      · omega

/-- **C110 (what is kept).** Of the reactions of a declaration with three or four legs, exactly the decays and the inverse
decays are kept; the decays have the kind of decays and the others the kind of creations. -/
theorem C110_kept (hinj : Function.Injective A.name) (d : Decl S) (h0 : d.left.length = d.antiL.length)
    (h1 : d.right.length = d.antiR.length) (h3 : d.left.length + d.right.length = 3 ∨ d.left.length + d.right.length = 4)
    (kind : CKind) :
    ∃ out, d.kept A kind = .ok out ∧ ∀ r k, (r, k) ∈ out ↔
      (IsCrossing A.toAttr (legs d.left d.right d.antiL d.antiR) r ∧ WellFormed A.toAttr r) ∧
        ((OneToMany r ∧ k = kindDecay kind) ∨ (ManyToOne r ∧ k = kindCreation kind)) := by
  obtain ⟨rs, r1, -, r3⟩ := C42_exactly_the_crossings A.toAttr hinj d.left d.right d.antiL d.antiR h0 h1
  refine ⟨_, by rw [Decl.kept, r1]; rfl, fun r k => ?_⟩
  have key : r ∈ rs → (pyCreation (r.map (·.side)).sum = true ↔ ManyToOne r) ∧
      (pyDecay (r.map (·.side)).sum = true ↔ OneToMany r) ∧ ¬ (ManyToOne r ∧ OneToMany r) := by
    intro hr
    obtain ⟨⟨s, hp, hf⟩, h, t, R, e, hh, hR, hne, -⟩ := (r3 r).mp hr
    have hs : ∀ x ∈ r, x.side = -1 ∨ x.side = 1 := by
      intro x hx
      rw [e] at hx
      rcases List.mem_append.mp hx with hx | hx
      · exact Or.inl (hh x hx)
      · exact Or.inr (hR x hx)
    obtain ⟨e1, e2⟩ := item_sides_sum r hs
    have hlen : r.length = d.left.length + d.right.length := by
      rw [← hf.length_eq, hp.length_eq, legs_length _ _ _ _ h0 h1]
    have a1 : (r.filter (·.side = -1)).length ≠ 0 := by
      rw [← Nat.pos_iff_ne_zero, List.length_pos_iff_exists_mem]
      exact ⟨h, List.mem_filter.mpr ⟨by rw [e]; simp, by simpa using hh h (List.mem_cons_self ..)⟩⟩
    have a2 : (r.filter (·.side = 1)).length ≠ 0 := by
      obtain ⟨y, hy⟩ := List.exists_mem_of_ne_nil R hne
      rw [← Nat.pos_iff_ne_zero, List.length_pos_iff_exists_mem]
      exact ⟨y, List.mem_filter.mpr ⟨by rw [e]; exact List.mem_append_right _ hy, by simpa using hR y hy⟩⟩
    unfold OneToMany ManyToOne pyCreation pyDecay
    simp only [decide_eq_true_eq]
    rw [e1]
    omega
  simp only [List.mem_map, List.mem_filter, Prod.mk.injEq, Bool.or_eq_true]
  constructor
  · rintro ⟨r', ⟨hr, hk⟩, rfl, rfl⟩
    obtain ⟨k1, k2, k3⟩ := key hr
    refine ⟨(r3 _).mp hr, ?_⟩
    by_cases hc : ManyToOne r'
    · rw [if_pos (k1.mpr hc)]; exact Or.inr ⟨hc, rfl⟩
    · rw [if_neg (fun h => hc (k1.mp h))]
      exact Or.inl ⟨by tauto, rfl⟩
  · rintro ⟨hw, h⟩
    have hr := (r3 _).mpr hw
    obtain ⟨k1, k2, k3⟩ := key hr
    rcases h with ⟨h, rfl⟩ | ⟨h, rfl⟩
    · exact ⟨r, ⟨hr, Or.inr (k2.mpr h)⟩, rfl, by rw [if_neg fun h' => k3 ⟨k1.mp h', h⟩]⟩
    · exact ⟨r, ⟨hr, Or.inl (k1.mpr h)⟩, rfl, by rw [if_pos (k1.mpr h)]⟩

/-! ## The declarations -/

theorem get_muon (k : ℕ) : Chain.get { m with muon := k } = m.get := by
  funext x; cases x <;> rfl

theorem decays_muon_irrel (k : ℕ) : decaysOf A c ME { m with muon := k } = decaysOf A c ME m := by
  funext x; cases x <;> rfl

theorem descends_muon (k : ℕ) : Descends A c ME { m with muon := k } = Descends A c ME m := by
  unfold Descends Daughter
  rw [decays_muon_irrel, get_muon]

theorem reached_muon (k : ℕ) : Reached A c ME { m with muon := k } = Reached A c ME m := by
  unfold Reached
  rw [descends_muon]

theorem times_muon (k : ℕ) : times A c ME { m with muon := k } = times A c ME m := by
  unfold times
  rw [descends_muon, reached_muon]

theorem channels_muon (k : ℕ) (l : List (Decl S)) (x : Meson) : channels { m with muon := k } l x = channels m l x := by
  unfold channels
  rw [get_muon]

theorem others_muon (k : ℕ) (l : List (Decl S)) : others { m with muon := k } l = others m l := by
  unfold others
  rw [get_muon]

theorem ok_muon (ok : ChainOk A m) (k : ℕ) : ChainOk A { m with muon := k } where
  name := ok.name
  get := by rw [get_muon]; exact ok.get
  apart := by rw [get_muon]; exact ok.apart
  list := by rw [get_muon]; exact ok.list
  muon := ok.muon
  pi0 := ok.pi0
  pi := ok.pi
  kaon1 := ok.kaon1
  kaon2 := ok.kaon2
  kaonS1 := ok.kaonS1
  kaonS2 := ok.kaonS2
  eta := ok.eta
  rho0 := ok.rho0
  rho := ok.rho
  omega := ok.omega
  etaP := ok.etaP
  phi1 := ok.phi1
  phi2 := ok.phi2
  phi3 := ok.phi3

theorem channels_lepton (ok : ChainOk A m) (x : Meson) : channels m (leptonInteractions A c m.leptons m.neutrinos) x = [] :=
  List.filter_eq_nil_iff.mpr fun d hd => by simpa using (lepton_facts c ok d hd).2.2 x

theorem others_lepton (ok : ChainOk A m) :
    others m (leptonInteractions A c m.leptons m.neutrinos) = leptonInteractions A c m.leptons m.neutrinos :=
  List.filter_eq_self.mpr fun d hd => by simpa using (lepton_facts c ok d hd).2.2

/-- The mesons of the list that come out of the primary reactions. -/
noncomputable def primaryMesons (A : LibAttr S) (m : Chain S) (ms : List Meson) (prim : List (List (Item S))) : List Meson :=
  open Classical in ms.filter fun x => ComesOut A prim (A.name (m.get x))

theorem meson_nil : mesonInteractions A c ME m [] = [] := rfl

theorem secondary_eq (muonDec : Bool) (ms : List Meson) (prim : List (List (Item S))) :
    secondaryDecls A c ME m muonDec ms prim =
      (open Classical in if (ComesOut A prim "Muon" ∧ ¬ muonDec = true) ∨ ComesOut A prim "Tau" then
        leptonInteractions A c m.leptons m.neutrinos else []) ++
      mesonInteractions A c ME { m with muon := produced A prim "Muon" + if muonDec then 1 else 0 }
        (primaryMesons A m ms prim) := by
  classical
  have hp : (ms.filter fun x => produced A prim (A.name (m.get x)) ≠ 0) = primaryMesons A m ms prim := by
    unfold primaryMesons
    refine List.filter_congr fun x _ => ?_
    rw [decide_eq_decide]
    exact produced_iff ..
  unfold secondaryDecls
  dsimp only
  rw [hp]
  refine congrArg₂ (· ++ ·) ?_ ?_
  · by_cases h : (ComesOut A prim "Muon" ∧ ¬ muonDec = true) ∨ ComesOut A prim "Tau"
    · rw [if_pos h, if_pos]; rwa [produced_iff, produced_iff]
    · rw [if_neg h, if_neg]; rwa [produced_iff, produced_iff]
  · by_cases h : primaryMesons A m ms prim = []
    · rw [h, if_neg (by simp)]; rfl
    · rw [if_pos h]

/-- **C110 (what is declared).** The decays of a meson are declared as often as `meson_interactions` declares them for the
mesons that come out of the primary reactions (once or twice, C100).  The lepton interactions are declared if muons, not
declared before, or taus come out, and once more if no muons come out but pions are reached. -/
theorem C110_declared (ok : ChainOk A m) (muonDec : Bool) (ms : List Meson) (prim : List (List (Item S))) :
    (∀ x, channels m (secondaryDecls A c ME m muonDec ms prim) x =
      (List.replicate (times A c ME m (primaryMesons A m ms prim) x) (decaysOf A c ME m x)).flatten) ∧
    others m (secondaryDecls A c ME m muonDec ms prim) =
      (open Classical in if (ComesOut A prim "Muon" ∧ ¬ muonDec = true) ∨ ComesOut A prim "Tau" then
        leptonInteractions A c m.leptons m.neutrinos else []) ++
      (open Classical in if (¬ ComesOut A prim "Muon" ∧ ¬ muonDec = true) ∧ Reached A c ME m (primaryMesons A m ms prim) .pi then
        leptonInteractions A c m.leptons m.neutrinos else []) := by
  classical
  obtain ⟨h1, h2⟩ := C100_declared c ME (ok_muon ok (produced A prim "Muon" + if muonDec then 1 else 0))
    (primaryMesons A m ms prim)
  rw [secondary_eq]
  constructor
  · intro x
    have := h1 x
    rw [channels_muon, times_muon, decays_muon_irrel] at this
    rw [channels_append, this]
    split_ifs
    · rw [channels_lepton c ok, List.nil_append]
    · rfl
  · rw [others_muon, reached_muon] at h2
    rw [others_append, h2]
    refine congrArg₂ (· ++ ·) ?_ ?_
    · split_ifs
      · exact others_lepton c ok
      · rfl
    · have e : produced A prim "Muon" + (if muonDec then 1 else 0) = 0 ↔ ¬ ComesOut A prim "Muon" ∧ ¬ muonDec = true := by
        rw [← produced_iff]
        cases muonDec <;> simp
      by_cases h : (¬ ComesOut A prim "Muon" ∧ ¬ muonDec = true) ∧ Reached A c ME m (primaryMesons A m ms prim) .pi
      · rw [if_pos h, if_pos ⟨e.mpr h.1, h.2⟩]
      · rw [if_neg h, if_neg fun h' => h ⟨e.mp h'.1, h'.2⟩]

/-- **C110 (nothing unstable is left without decay, mesons).** If a meson of the list comes out of a primary reaction, or
any meson occurs in a declared reaction, all its decays are declared. -/
theorem C110_closed (ok : ChainOk A m) (muonDec : Bool) (ms : List Meson) (prim : List (List (Item S))) (x : Meson)
    (hx : (x ∈ ms ∧ ComesOut A prim (A.name (m.get x))) ∨
      ∃ d ∈ secondaryDecls A c ME m muonDec ms prim, m.get x ∈ d.left ++ d.right) :
    ∀ e ∈ decaysOf A c ME m x, e ∈ secondaryDecls A c ME m muonDec ms prim := by
  classical
  have main : Reached A c ME m (primaryMesons A m ms prim) x →
      ∀ e ∈ decaysOf A c ME m x, e ∈ secondaryDecls A c ME m muonDec ms prim := by
    intro h e he
    have h' := (reached_times (A := A) (m := m) c ME _ x).mpr h
    have : e ∈ channels m (secondaryDecls A c ME m muonDec ms prim) x := by
      rw [(C110_declared c ME ok muonDec ms prim).1 x]
      exact List.mem_flatten.mpr ⟨_, List.mem_replicate.mpr ⟨h', rfl⟩, he⟩
    exact (List.mem_filter.mp this).1
  rcases hx with ⟨h1, h2⟩ | ⟨d, hd, hx⟩
  · exact main ⟨x, by unfold primaryMesons; exact List.mem_filter.mpr ⟨h1, by simpa using h2⟩, Or.inl rfl⟩
  · rw [secondary_eq] at hd
    rcases List.mem_append.mp hd with hd | hd
    · split_ifs at hd
      · exact absurd hx ((lepton_facts c ok d hd).2.1 x)
      · simp at hd
    · intro e he
      rw [secondary_eq]
      refine List.mem_append_right _ ?_
      have := C100_closed c ME (ok_muon ok (produced A prim "Muon" + if muonDec then 1 else 0)) _ d hd x
        (by rw [get_muon]; exact hx) e
      rw [decays_muon_irrel] at this
      exact this he

/-- **C110 (nothing unstable is left without decay, leptons).** If muons or taus come out of a primary reaction, or muons
occur in a declared one, the lepton interactions are declared, unless the caller says that muons have been dealt with and
there are no taus. -/
theorem C110_leptons (ok : ChainOk A m) (muonDec : Bool) (ms : List Meson) (prim : List (List (Item S)))
    (hx : ComesOut A prim "Muon" ∨ ComesOut A prim "Tau" ∨
      ∃ d ∈ secondaryDecls A c ME m muonDec ms prim, m.muonP ∈ d.left ++ d.right)
    (hd : muonDec = true → ComesOut A prim "Tau") :
    ∀ e ∈ leptonInteractions A c m.leptons m.neutrinos, e ∈ secondaryDecls A c ME m muonDec ms prim := by
  classical
  intro e he
  rw [secondary_eq]
  by_cases h : (ComesOut A prim "Muon" ∧ ¬ muonDec = true) ∨ ComesOut A prim "Tau"
  · rw [if_pos h]; exact List.mem_append_left _ he
  · rw [not_or] at h
    obtain ⟨g1, g2⟩ := h
    have g3 : ¬ muonDec = true := fun g => g2 (hd g)
    have g4 : ¬ ComesOut A prim "Muon" := fun g => g1 ⟨g, g3⟩
    rcases hx with hx | hx | ⟨d, hd', hx⟩
    · exact absurd hx g4
    · exact absurd hx g2
    · rw [secondary_eq, if_neg (by rw [not_or]; exact ⟨g1, g2⟩), List.nil_append] at hd'
      rcases C100_muons c ME (ok_muon ok _) _ d hd' hx with h | h
      · exfalso
        have h0 : produced A prim "Muon" = 0 := by
          by_contra h0
          exact g4 ((produced_iff _ _).mp h0)
        revert h
        rw [h0]
        simp [g3]
      · exact List.mem_append_right _ (h e he)

/-- **C110 (the stated claim fails).** If taus come out of the primary reactions and pions are reached, but no muons come
out, every lepton interaction is declared twice, so that these processes run at twice their rate. -/
theorem C110_twice (ok : ChainOk A m) (ms : List Meson) (prim : List (List (Item S))) (hT : ComesOut A prim "Tau")
    (hM : ¬ ComesOut A prim "Muon") (hp : Reached A c ME m (primaryMesons A m ms prim) .pi) :
    others m (secondaryDecls A c ME m false ms prim) =
      leptonInteractions A c m.leptons m.neutrinos ++ leptonInteractions A c m.leptons m.neutrinos := by
  classical
  rw [(C110_declared c ME ok false ms prim).2, if_pos (Or.inr hT), if_pos ⟨⟨hM, by simp⟩, hp⟩]

/-- **C110 (once, otherwise).** Unless taus come out, no muons come out and pions are reached, the lepton interactions are
declared at most once; with `muon_dec` they are declared again if taus come out. -/
theorem C110_once_partial (ok : ChainOk A m) (muonDec : Bool) (ms : List Meson) (prim : List (List (Item S)))
    (h : ¬ (ComesOut A prim "Tau" ∧ ¬ ComesOut A prim "Muon" ∧ muonDec = false ∧
      Reached A c ME m (primaryMesons A m ms prim) .pi)) :
    others m (secondaryDecls A c ME m muonDec ms prim) = [] ∨
      others m (secondaryDecls A c ME m muonDec ms prim) = leptonInteractions A c m.leptons m.neutrinos := by
  classical
  rw [(C110_declared c ME ok muonDec ms prim).2]
  by_cases h1 : (ComesOut A prim "Muon" ∧ ¬ muonDec = true) ∨ ComesOut A prim "Tau"
  · right
    rw [if_pos h1, if_neg, List.append_nil]
    rintro ⟨⟨g1, g2⟩, g3⟩
    rcases h1 with h1 | h1
    · exact g1 h1.1
    · exact h ⟨h1, g1, by simpa using g2, g3⟩
  · rw [if_neg h1, List.nil_append]
    split_ifs
    · exact Or.inr rfl
    · exact Or.inl rfl

/-! ## The decays among the kept integrals -/

/-- One particle into the others, if that is open and the particle is not declared as an antiparticle. -/
theorem kept_decay (hinj : Function.Injective A.name) (d : Decl S) (p : S) (t : List S) (a : List Bool) (hl : d.left = p :: t)
    (ha : d.antiL = false :: a) (h0 : d.left.length = d.antiL.length) (h1 : d.right.length = d.antiR.length)
    (h3 : d.left.length + d.right.length = 3 ∨ d.left.length + d.right.length = 4)
    (hm : ((t ++ d.right).map A.mass).sum < A.mass p) (kind : CKind) :
    ∃ out, d.kept A kind = .ok out ∧ ∃ x R, (x :: R, kindDecay kind) ∈ out ∧ x.specie = p ∧ x.side = -1 ∧
      (∀ y ∈ R, y.side = 1) ∧ (R.map (·.specie)).Perm (t ++ d.right) := by
  obtain ⟨out, e, H⟩ := C110_kept hinj d h0 h1 h3 kind
  obtain ⟨rs, r1, -, r3⟩ := C42_exactly_the_crossings A.toAttr hinj d.left d.right d.antiL d.antiR h0 h1
  obtain ⟨rs', q1, -, q3⟩ := reactionsMap_mem A.toAttr d.left d.right d.antiL d.antiR h0 h1
  rw [r1] at q1
  obtain rfl := Except.ok.inj q1
  have hlen := legs_length d.left d.right d.antiL d.antiR h0 h1
  have spec : ∀ (k : ℤ) (x : Item S), (toSide A.toAttr k x).specie = x.specie := by
    intro k x
    unfold toSide crossParticle
    split_ifs <;> rfl
  have hleg := fun k hk => C42_legs d.left d.right d.antiL d.antiR h0 h1 k hk
  have hsp : (legs d.left d.right d.antiL d.antiR).map (·.specie) = p :: (t ++ d.right) := by
    rw [show p :: (t ++ d.right) = d.left ++ d.right by rw [hl]; rfl]
    apply List.ext_getElem?
    intro k
    rw [List.getElem?_map]
    by_cases hk : k < d.left.length + d.right.length
    · rw [hleg k hk, List.getElem?_eq_getElem (by simpa using hk)]
      rfl
    · rw [List.getElem?_eq_none (by omega), List.getElem?_eq_none (by simpa using hk)]
      rfl
  have hs := legs_side d.left d.right d.antiL d.antiR
  have hhead : (legs d.left d.right d.antiL d.antiR)[0]? = some ⟨-1, p, false, 0, false⟩ := by
    rw [hleg 0 (by omega), if_pos (by rw [hl]; simp)]
    simp [hl, ha]
  cases hL : legs d.left d.right d.antiL d.antiR with
  | nil => rw [hL] at hhead; simp at hhead
  | cons o T =>
    rw [hL] at hhead hsp hs hlen
    obtain rfl : o = ⟨-1, p, false, 0, false⟩ := by simpa using hhead
    have hT : T.map (·.specie) = t ++ d.right := by
      rw [List.map_cons] at hsp
      exact (List.cons.inj hsp).2
    have hi : 0 + 1 < ((⟨-1, p, false, 0, false⟩ : Item S) :: T).length := by
      rw [hlen]; omega
    obtain ⟨h, L, R, e1, e2, e3, e4, e5, e6⟩ := reactionOf_eq A.toAttr _ 0 hi hs
    rw [List.take_succ_cons, List.take_zero, List.map_cons, List.map_nil] at e1
    obtain ⟨rfl, rfl⟩ := List.cons.inj e1
    rw [List.drop_succ_cons, List.drop_zero] at e2
    have hx : toSide A.toAttr (-1) (⟨-1, p, false, 0, false⟩ : Item S) = ⟨-1, p, false, 0, false⟩ := by
      unfold toSide; rw [if_pos rfl]
    rw [hx] at e6
    have hRs : R.map (·.specie) = t ++ d.right := by
      rw [e2, List.map_map, ← hT]
      exact List.map_congr_left fun x _ => spec _ _
    have hRm : totalMass A.toAttr R = ((t ++ d.right).map A.mass).sum := by
      unfold totalMass
      rw [← hRs, List.map_map]
      rfl
    have hRl : R.length = T.length := by rw [e2, List.length_map]
    rw [if_neg (by simp), if_neg] at e6
    · have hmem : (⟨-1, p, false, 0, false⟩ : Item S) :: sortItems A.toAttr [] ++ sortItems A.toAttr R ∈ rs :=
        (q3 _).mpr ⟨_, 0, by rw [hL], hi, e6⟩
      have hperm : (sortItems A.toAttr R).Perm R := List.perm_insertionSort ..
      have hnil : sortItems A.toAttr ([] : List (Item S)) = [] := rfl
      rw [hnil] at hmem
      refine ⟨out, e, ⟨-1, p, false, 0, false⟩, sortItems A.toAttr R, (H _ _).mpr ⟨(r3 _).mp hmem, Or.inl ⟨?_, rfl⟩⟩, rfl,
        rfl, fun y hy => e5 y (hperm.subset hy), ?_⟩
      · unfold OneToMany
        rw [List.filter_cons_of_pos (by simp), List.filter_eq_nil_iff.mpr]
        · rfl
        · intro y hy
          rw [e5 y (hperm.subset hy)]
          simp
      · exact (hperm.map _).trans (List.Perm.of_eq hRs)
    · rintro (⟨-, g⟩ | ⟨y, g, -⟩)
      · rw [hRm] at g
        exact absurd g (not_le.mpr hm)
      · have : R.length = 1 := by rw [g]; rfl
        simp only [List.length_cons] at hlen
        omega

/-- **C110 (decays of mesons).** Every declared decay of a meson (not of its antiparticle) into lighter products is kept as
an integral of that meson alone into the products, with the kind of decays. -/
theorem C110_meson_decay (hinj : Function.Injective A.name) (x : Meson) (d : Decl S) (hd : d ∈ decaysOf A c ME m x)
    (ha : d.antiL.head? = some false) (hm : ((d.left.tail ++ d.right).map A.mass).sum < A.mass (m.get x)) (kind : CKind) :
    ∃ out, d.kept A kind = .ok out ∧ ∃ y R, (y :: R, kindDecay kind) ∈ out ∧ y.specie = m.get x ∧ y.side = -1 ∧
      (∀ z ∈ R, z.side = 1) ∧ (R.map (·.specie)).Perm (d.left.tail ++ d.right) := by
  have hshape : d.left.length = d.antiL.length ∧ d.right.length = d.antiR.length ∧
      (d.left.length + d.right.length = 3 ∨ d.left.length + d.right.length = 4) := by
    cases x <;> simp only [decaysOf, decayChargedPion, decayNeutralPion, List.map_cons, List.map_nil] at hd <;>
      fin_cases hd <;> simp
  obtain ⟨h0, h1, h3⟩ := hshape
  have hh := decays_head c ME x d hd
  cases hl : d.left with
  | nil => rw [hl] at hh; simp at hh
  | cons p t =>
    rw [hl] at hh
    obtain rfl : p = m.get x := by simpa using hh
    cases hA : d.antiL with
    | nil => rw [hA] at ha; simp at ha
    | cons a0 a =>
      rw [hA] at ha
      obtain rfl : a0 = false := by simpa using ha
      rw [hl, List.tail_cons] at hm
      exact kept_decay hinj d _ t a hl hA h0 h1 h3 hm kind

/-- **C110 (decays of leptons).** If the lepton interactions are declared, then every lepton that is heavier than another
one with their two neutrinos has its decay among the kept integrals, with the kind of decays. -/
theorem C110_lepton_decay (hinj : Function.Injective A.name) (leptons neutrinos : List S) (l l' n n' : S) (hl : l ∈ leptons)
    (hl' : l' ∈ leptons) (hn : n ∈ neutrinos) (hn' : n' ∈ neutrinos) (hll : l' ≠ l) (hnn : n' ≠ n)
    (f : A.flavour n = A.flavour l) (f' : A.flavour n' = A.flavour l')
    (hm : A.mass l' + A.mass n + A.mass n' < A.mass l) (kind : CKind) :
    ∃ d ∈ leptonInteractions A c leptons neutrinos, ∃ out, d.kept A kind = .ok out ∧
      ∃ y R, (y :: R, kindDecay kind) ∈ out ∧ y.specie = l ∧ y.side = -1 ∧ (∀ z ∈ R, z.side = 1) ∧
        (R.map (·.specie)).Perm [l', n, n'] := by
  refine ⟨leptonsCC c n n' l l', ?_, ?_⟩
  · have c1 : 1 < leptons.length := by
      by_contra h
      have : leptons.length = 1 := by
        have := List.length_pos_of_mem hl; omega
      obtain ⟨z, hz⟩ := List.length_eq_one_iff.mp this
      rw [hz, List.mem_singleton] at hl hl'
      exact hll (hl'.trans hl.symm)
    have c2 : 1 < neutrinos.length := by
      by_contra h
      have : neutrinos.length = 1 := by
        have := List.length_pos_of_mem hn; omega
      obtain ⟨z, hz⟩ := List.length_eq_one_iff.mp this
      rw [hz, List.mem_singleton] at hn hn'
      exact hnn (hn'.trans hn.symm)
    simp only [leptonInteractions, List.mem_flatMap]
    refine ⟨l, hl, n, hn, ?_⟩
    rw [if_pos ⟨c1, c2⟩]
    simp only [List.mem_flatMap, List.mem_filter, decide_eq_true_eq]
    refine ⟨l', ⟨hl', hll⟩, n', ⟨hn', hnn⟩, ?_⟩
    rw [if_pos ⟨f, f'⟩]
    exact List.mem_singleton_self _
  · refine kept_decay hinj _ l [l'] [true] rfl rfl rfl rfl (Or.inr rfl) ?_ kind
    simpa [leptonsCC, add_assoc] using hm

/-- **C110 (nothing else).** Every declaration returned belongs to a decay of a meson or is one of the lepton
interactions. -/
theorem C110_only (muonDec : Bool) (ok : ChainOk A m) (ms : List Meson) (prim : List (List (Item S))) (d : Decl S)
    (hd : d ∈ secondaryDecls A c ME m muonDec ms prim) :
    (∃ x, Reached A c ME m (primaryMesons A m ms prim) x ∧ d ∈ decaysOf A c ME m x) ∨
      d ∈ leptonInteractions A c m.leptons m.neutrinos := by
  classical
  obtain ⟨h1, h2⟩ := C110_declared c ME ok muonDec ms prim
  by_cases hx : ∃ x, d.left.head? = some (m.get x)
  · obtain ⟨x, hx⟩ := hx
    have : d ∈ channels m (secondaryDecls A c ME m muonDec ms prim) x := List.mem_filter.mpr ⟨hd, by simpa using hx⟩
    rw [h1 x] at this
    obtain ⟨l, hl, hdl⟩ := List.mem_flatten.mp this
    obtain ⟨h0, rfl⟩ := List.mem_replicate.mp hl
    exact Or.inl ⟨x, (reached_times c ME _ x).mp h0, hdl⟩
  · have : d ∈ others m (secondaryDecls A c ME m muonDec ms prim) :=
      List.mem_filter.mpr ⟨hd, by simpa using fun x h => hx ⟨x, h⟩⟩
    rw [h2] at this
    right
    rcases List.mem_append.mp this with h | h <;> split_ifs at h <;> first | exact h | simp at h

end

/-- **C110 (kinds).** The kinds given to the kept integrals are never `Full` or `FullVacuum`; with one of the vacuum kinds
both are vacuum kinds. -/
theorem C110_kinds (kind : CKind) :
    kindDecay kind ∉ [CKind.full, .fullVac] ∧ kindCreation kind ∉ [CKind.full, .fullVac] ∧
    (kind ∈ [CKind.f1Vac, .ffVac] → kindDecay kind = .ffVac ∧ kindCreation kind = .f1Vac) ∧
    (kind ∉ [CKind.f1Vac, .ffVac] → kindDecay kind = .fDecay ∧ kindCreation kind = .fCreation) := by
  cases kind <;> decide

/-- **C110 (the integrals cannot be computed).** A four-particle integral with one of these kinds raises on every grid of
two or more points, unless it is neglected or a creation from a particle with `fast_decay`: in particular muon and tau
decays declared in this way. -/
theorem C110_raises {ι : Type*} (i : Int4 ι) (p : Params) (sched : List (List ℕ)) (kind : CKind)
    (hk : i.kind = kindDecay kind ∨ i.kind = kindCreation kind) (hn : i.neglect = false) (hc : i.creationFast = false)
    (hs : StrictInc (i.sp 0).grid) (hl : 1 < (i.sp 0).grid.length) : ∃ e, integrate4 i p sched = .error e := by
  have hne : (i.sp 0).grid ≠ [] := by
    intro h; rw [h] at hl; simp at hl
  obtain ⟨-, -, -, hlen, -⟩ := C47_four (i.sp 0).grid hne hs i.ub
  have hk' : ¬ ((i.kind = .full ∨ i.kind = .fullVac) ∧ ¬ (i.sp 0).fastDecay = true) := by
    obtain ⟨k1, k2, -⟩ := C110_kinds kind
    simp only [List.mem_cons, List.not_mem_nil, or_false] at k1 k2
    rintro ⟨h, -⟩
    rcases hk with e | e <;> rw [e] at h
    · exact k1 h
    · exact k2 h
  unfold integrate4
  dsimp only
  rw [hn, hc, if_neg (by simp), if_neg hk']
  cases hF : integration4Exact (i.reaction p) (i.Ms.map (toCM i.GF)) i.kind.toInt
      ((gridCut4 (i.sp 0).grid i.ub).1.map (· / p.aT)) (i.min1 / p.aT) (i.max1 / p.aT) (i.min2 / p.aT) (i.max2 / p.aT)
      (i.max3 / p.aT) sched with
  | error e => exact ⟨e, rfl⟩
  | ok full =>
    have lF := integration4Exact_length hF
    rw [List.length_map] at lF
    refine ⟨.valueError, ?_⟩
    simp only [bind, Except.bind]
    exact C59_four_raises _ _ _ _ _ _ _ _ (by rw [List.length_append, lF]; omega)

/-! ## Examples -/

/-- The shipped particles; a heavy neutrino decays into tau and charged pion: one reaction with a tau and a pion coming
out. -/
example (MeV : ℝ) (hM : 0 < MeV) (mN : ℚ) (c : LibConst) (ME : String → ℝ) (N : Tmpl) :
    let m := tmplChain [.electron, .muon, .tau] [.nuE, .nuMu, .nuTau] 0
    let prim : List (List (Item Tmpl)) := [[⟨-1, N, false, 0, false⟩, ⟨1, .tau, false, 1, false⟩, ⟨1, .pi, true, 2, false⟩]]
    others m (secondaryDecls (tmplAttr MeV mN) c ME m false [.pi0, .pi] prim) =
      leptonInteractions (tmplAttr MeV mN) c m.leptons m.neutrinos ++ leptonInteractions (tmplAttr MeV mN) c m.leptons m.neutrinos := by
  classical
  intro m prim
  have ok : ChainOk (tmplAttr MeV mN) m := tmpl_chain_ok MeV hM mN _ _ (by simp) (by simp) 0
  refine C110_twice c ME ok _ _ ⟨_, List.mem_singleton_self _, ⟨1, .tau, false, 1, false⟩, by simp, rfl, rfl⟩ ?_ ?_
  · rintro ⟨r, hr, x, hx, h1, h2⟩
    obtain rfl := List.mem_singleton.mp hr
    simp only [List.mem_cons, List.not_mem_nil, or_false] at hx
    rcases hx with rfl | rfl | rfl
    · simp at h1
    · simp [tmplAttr, Tmpl.name] at h2
    · simp [tmplAttr, Tmpl.name] at h2
  · refine ⟨.pi, ?_, Or.inl rfl⟩
    unfold primaryMesons
    refine List.mem_filter.mpr ⟨by simp, ?_⟩
    simp only [decide_eq_true_eq]
    exact ⟨_, List.mem_singleton_self _, ⟨1, .pi, true, 2, false⟩, by simp, rfl, rfl⟩

/-- The muon decay with the shipped masses is kept. -/
example (MeV : ℝ) (hM : 0 < MeV) (mN : ℚ) (c : LibConst) (kind : CKind) :
    ∃ d ∈ leptonInteractions (tmplAttr MeV mN) c [.electron, .muon] [.nuE, .nuMu, .nuTau], ∃ out,
      d.kept (tmplAttr MeV mN) kind = .ok out ∧ ∃ y R, (y :: R, kindDecay kind) ∈ out ∧ y.specie = .muon ∧ y.side = -1 ∧
        (∀ z ∈ R, z.side = 1) ∧ (R.map (·.specie)).Perm [.electron, .nuMu, .nuE] := by
  refine C110_lepton_decay c (tmpl_chain_ok MeV hM mN [] [] (by simp) (by simp) 0).name _ _ .muon .electron .nuMu .nuE
    (by simp) (by simp) (by simp) (by simp) (by simp) (by simp) rfl rfl ?_ kind
  simp only [tmplAttr, Tmpl.mass]; norm_num; nlinarith

/-- The decay of a long-lived kaon into three neutral pions is kept. -/
example (MeV : ℝ) (hM : 0 < MeV) (mN : ℚ) (c : LibConst) (ME : String → ℝ) (kind : CKind) :
    let m := tmplChain [.electron, .muon] [.nuE, .nuMu] 0
    ∃ d ∈ decaysOf (tmplAttr MeV mN) c ME m .kaonL, ∃ out, d.kept (tmplAttr MeV mN) kind = .ok out ∧
      ∃ y R, (y :: R, kindDecay kind) ∈ out ∧ y.specie = m.kaonL ∧ y.side = -1 ∧ (∀ z ∈ R, z.side = 1) ∧
        (R.map (·.specie)).Perm [m.pi0, m.pi0, m.pi0] := by
  intro m
  refine ⟨_, List.mem_cons_of_mem _ (List.mem_cons_of_mem _ (List.mem_cons_self ..)), ?_⟩
  refine C110_meson_decay c ME (tmpl_chain_ok MeV hM mN [] [] (by simp) (by simp) 0).name .kaonL _
    (List.mem_cons_of_mem _ (List.mem_cons_of_mem _ (List.mem_cons_self ..))) rfl ?_ kind
  simp only [List.tail_cons, List.cons_append, List.nil_append, List.map_cons, List.map_nil, List.sum_cons, List.sum_nil,
    Chain.get, m, tmplChain, tmplAttr, Tmpl.mass]
  norm_num; nlinarith

end PyBBN
