import Verif.Props.Owners
import Mathlib.Data.List.Count
import Mathlib.Logic.Relation
/-!
# C100: the decay chains declared by `meson_interactions`
-/
namespace PyBBN

set_option linter.unusedSectionVars false

section
variable {S : Type*} [DecidableEq S] (A : LibAttr S) (c : LibConst) (ME : String → ℝ) (m : Chain S)

/-! ## Specification -/

/-- A squared amplitude which is the constant `K`, for particles in the order of the reaction. -/
def constElement (K : ℝ) : M4 where
  K1 := 0
  K2 := 0
  K := K
  order := ⟨0, 1, 2, 3⟩

/-- The table of decay channels. -/
noncomputable def decaysOf : Meson → List (Decl S)
  | .pi0 => decayNeutralPion A c m.pi0 m.photon
  | .pi => decayChargedPion A c m.pi m.muonP m.nuMu
  | .kaon => [⟨[m.kaon, m.pi0], [m.electron, m.nuE], [false, false], [false, true], .four [constElement (ME "KaonMinPi0ElecNue")]⟩,
      ⟨[m.kaon, m.pi], [m.pi, m.pi], [false, true], [false, false], .four [constElement (ME "KaonMinPiPlusTwoPiMin")]⟩,
      ⟨[m.kaon], [m.muonP, m.nuMu], [false], [false, true], .three (ME "KaonMinMuonNumu")⟩,
      ⟨[m.kaon], [m.pi, m.pi0], [false], [false, false], .three (ME "KaonMinPiMinPi0")⟩]
  | .kaonL => [⟨[m.kaonL, m.pi], [m.electron, m.nuE], [false, true], [false, true], .four [constElement (ME "KaonLPiPlusElecNue")]⟩,
      ⟨[m.kaonL, m.pi], [m.muonP, m.nuMu], [false, true], [false, true], .four [constElement (ME "KaonLPiPlusMuonNumu")]⟩,
      ⟨[m.kaonL, m.pi0], [m.pi0, m.pi0], [false, false], [false, false], .four [constElement (ME "KaonLThreePi0")]⟩,
      ⟨[m.kaonL, m.pi0], [m.pi, m.pi], [false, false], [false, true], .four [constElement (ME "KaonLPiPlusPiMinPi0")]⟩]
  | .kaonS => [⟨[m.kaonS], [m.pi0, m.pi0], [false], [false, false], .three (ME "KaonSTwoPi0")⟩,
      ⟨[m.kaonS], [m.pi, m.pi], [false], [false, true], .three (ME "KaonSPiPlusPiMin")⟩]
  | .eta => [⟨[m.eta], [m.photon, m.photon], [false], [false, false], .three (ME "EtaTwoGamma")⟩,
      ⟨[m.eta, m.pi0], [m.pi0, m.pi0], [false, false], [false, false], .four [constElement (ME "EtaThreePi0")]⟩,
      ⟨[m.eta, m.pi0], [m.pi, m.pi], [false, false], [false, true], .four [constElement (ME "EtaPiPlusPiMinPi0")]⟩,
      ⟨[m.eta, m.photon], [m.pi, m.pi], [false, false], [false, true], .four [constElement (ME "EtaPiPlusPiMinGamma")]⟩]
  | .rho0 => [⟨[m.rho0], [m.pi, m.pi], [false], [true, false], .three (ME "Rho0PiPlusPiMin")⟩]
  | .rho => [⟨[m.rho], [m.pi, m.pi0], [false], [false, false], .three (ME "RhoPlusPiPlusPi0")⟩]
  | .omega => [⟨[m.omega, m.pi], [m.pi, m.pi0], [false, true], [false, false], .four [constElement (ME "OmegaPiPlusPiMinPi0")]⟩,
      ⟨[m.omega], [m.pi0, m.photon], [false], [false, false], .three (ME "OmegaPi0Gamma")⟩]
  | .etaP => [⟨[m.etaP, m.eta], [m.pi, m.pi], [false, false], [false, true], .four [constElement (ME "EtaPrimePiPlusPiMinEta")]⟩,
      ⟨[m.etaP, m.pi0], [m.pi0, m.eta], [false, false], [false, false], .four [constElement (ME "EtaPrimeTwoPi0Eta")]⟩,
      ⟨[m.etaP], [m.rho0, m.photon], [false], [false, false], .three (ME "EtaPrimeRho0Gamma")⟩]
  | .phi => [⟨[m.phi], [m.kaon, m.kaon], [false], [true, false], .three (ME "PhiKPlusKMin")⟩,
      ⟨[m.phi], [m.kaonL, m.kaonS], [false], [false, false], .three (ME "PhiK0LK0S")⟩,
      ⟨[m.phi], [m.rho0, m.pi0], [false], [false, false], .three (ME "PhiRho0Pi0")⟩]

/-- The meson `y` occurs among the products of a decay of `x`. -/
def Daughter (x y : Meson) : Prop := ∃ d ∈ decaysOf A c ME m x, m.get y ∈ d.left.tail ++ d.right

/-- The meson `y` appears in the decay chain of `x`. -/
def Descends : Meson → Meson → Prop := Relation.TransGen (Daughter A c ME m)

/-- The declared decays of the meson `x`. -/
def channels (l : List (Decl S)) (x : Meson) : List (Decl S) := l.filter fun d => d.left.head? = some (m.get x)

/-- The declarations that are not meson decays. -/
noncomputable def others (l : List (Decl S)) : List (Decl S) :=
  open Classical in l.filter fun d => ∀ x, d.left.head? ≠ some (m.get x)

/-- `x` is one of the primary mesons or appears in the decay chain of one of them. -/
def Reached (primary : List Meson) (x : Meson) : Prop := ∃ y ∈ primary, y = x ∨ Descends A c ME m y x

/-- How many times the decays of `x` are declared: once for every occurrence among the primary mesons, and once more if it
is reached through the chain of an earlier meson. -/
noncomputable def times (primary : List Meson) (x : Meson) : ℕ :=
  open Classical in
  primary.count x +
    if ∃ pre y post, primary = pre ++ y :: post ∧ Descends A c ME m y x ∧ ¬ Reached A c ME m pre x then 1 else 0

/-- The particles of the chains are distinct objects with distinct names, and every decay is open. -/
structure ChainOk (A : LibAttr S) (m : Chain S) : Prop where
  name : Function.Injective A.name
  get : Function.Injective m.get
  apart : ∀ x, m.get x ∉ [m.photon, m.electron, m.muonP, m.nuE, m.nuMu]
  list : ∀ x, m.get x ∉ m.leptons ++ m.neutrinos
  muon : m.muonP ∉ [m.photon, m.electron, m.nuE, m.nuMu]
  pi0 : A.mass m.photon + A.mass m.photon < A.mass m.pi0
  pi : A.mass m.muonP + A.mass m.nuMu < A.mass m.pi
  kaon1 : A.mass m.muonP + A.mass m.nuMu < A.mass m.kaon
  kaon2 : A.mass m.pi + A.mass m.pi0 < A.mass m.kaon
  kaonS1 : A.mass m.pi0 + A.mass m.pi0 < A.mass m.kaonS
  kaonS2 : A.mass m.pi + A.mass m.pi < A.mass m.kaonS
  eta : A.mass m.photon + A.mass m.photon < A.mass m.eta
  rho0 : A.mass m.pi + A.mass m.pi < A.mass m.rho0
  rho : A.mass m.pi + A.mass m.pi0 < A.mass m.rho
  omega : A.mass m.pi0 + A.mass m.photon < A.mass m.omega
  etaP : A.mass m.rho0 + A.mass m.photon < A.mass m.etaP
  phi1 : A.mass m.kaon + A.mass m.kaon < A.mass m.phi
  phi2 : A.mass m.kaonL + A.mass m.kaonS < A.mass m.phi
  phi3 : A.mass m.rho0 + A.mass m.pi0 < A.mass m.phi

/-! ## Presence -/

/-- The declaration generates at least one reaction. -/
def Live (d : Decl S) : Prop :=
  d.left.length = d.antiL.length ∧ d.right.length = d.antiR.length ∧
    ∃ rs, reactionsMap A.toAttr d.left d.right d.antiL d.antiR = .ok rs ∧ rs ≠ []

theorem live_of (d : Decl S) (h0 : d.left.length = d.antiL.length) (h1 : d.right.length = d.antiR.length) (s : S)
    (h : HasIntegral A d s) : Live A d := by
  obtain ⟨rs, e, x, t, hx, -⟩ := h
  exact ⟨h0, h1, rs, e, List.ne_nil_of_mem hx⟩

/-- `already_there` finds exactly the particles that occur in some declaration. -/
theorem alreadyThere_iff (hinj : Function.Injective A.name) (l : List (Decl S)) (hl : ∀ d ∈ l, Live A d) (s : S) :
    alreadyThere A l s = true ↔ ∃ d ∈ l, s ∈ d.left ++ d.right := by
  simp only [alreadyThere, decide_eq_true_eq]
  constructor
  · rintro ⟨d, hd, rs, e, r, hr, x, hx, hn⟩
    refine ⟨d, hd, ?_⟩
    obtain ⟨h0, h1, -⟩ := hl d hd
    have := (C41_legs_once A.toAttr _ _ _ _ h0 h1 rs e r hr).subset (List.mem_map_of_mem hx)
    rw [← hinj hn]
    exact (List.of_mem_zip this).2
  · rintro ⟨d, hd, hs⟩
    obtain ⟨h0, h1, rs, e, hne⟩ := hl d hd
    obtain ⟨r, hr⟩ := List.exists_mem_of_ne_nil rs hne
    refine ⟨d, hd, rs, e, r, hr, ?_⟩
    obtain ⟨k, hk, rfl⟩ := List.getElem_of_mem hs
    have hp := C41_legs_once A.toAttr _ _ _ _ h0 h1 rs e r hr
    have hk' : k < ((List.range (d.left.length + d.right.length)).zip (d.left ++ d.right)).length := by
      rw [List.length_zip, List.length_range, ← List.length_append]
      simpa using hk
    have hmem := hp.symm.subset (List.getElem_mem hk')
    rw [List.getElem_zip] at hmem
    obtain ⟨x, hx, hxe⟩ := List.mem_map.mp hmem
    refine ⟨x, hx, ?_⟩
    rw [show x.specie = (d.left ++ d.right)[k] from congrArg Prod.snd hxe]

/-- The reachable mesons, tabulated. -/
def descTable : Meson → List Meson
  | .pi0 => [] | .pi => [] | .kaon => [.pi, .pi0] | .kaonL => [.pi, .pi0] | .kaonS => [.pi, .pi0] | .eta => [.pi, .pi0]
  | .rho0 => [.pi] | .rho => [.pi, .pi0] | .omega => [.pi, .pi0] | .etaP => [.rho0, .eta, .pi, .pi0]
  | .phi => [.rho0, .kaon, .kaonL, .kaonS, .pi, .pi0]

variable {A} {m}

theorem mem_get (ok : ChainOk A m) (x y : Meson) : m.get x = m.get y ↔ x = y := ok.get.eq_iff

theorem decays_species (x : Meson) : ∀ d ∈ decaysOf A c ME m x, ∀ s ∈ d.left ++ d.right,
    s = m.get x ∨ (∃ z ∈ descTable x, s = m.get z) ∨ s ∈ [m.photon, m.electron, m.nuE, m.nuMu] ∨
      (s = m.muonP ∧ (x = .pi ∨ .pi ∈ descTable x)) := by
  intro d hd s hs
  cases x <;> simp only [decaysOf, decayChargedPion, decayNeutralPion, List.map_cons, List.map_nil] at hd <;>
    fin_cases hd <;> fin_cases hs <;> simp [descTable, Chain.get]

theorem decays_mention (ok : ChainOk A m) (x y : Meson) (d : Decl S) (hd : d ∈ decaysOf A c ME m x)
    (hy : m.get y ∈ d.left ++ d.right) : y = x ∨ y ∈ descTable x := by
  have ha := ok.apart y
  simp only [List.mem_cons, List.not_mem_nil, or_false, not_or] at ha
  rcases decays_species c ME x d hd _ hy with h | ⟨z, hz, h⟩ | h | ⟨h, -⟩
  · exact Or.inl (ok.get h)
  · rw [ok.get h]; exact Or.inr hz
  · simp only [List.mem_cons, List.not_mem_nil, or_false] at h
    tauto
  · tauto

theorem decays_muon (ok : ChainOk A m) (x : Meson) (d : Decl S) (hd : d ∈ decaysOf A c ME m x)
    (hy : m.muonP ∈ d.left ++ d.right) : x = .pi ∨ .pi ∈ descTable x := by
  have ha := ok.muon
  have hb : ∀ z, m.muonP ≠ m.get z := by
    intro z h
    have := ok.apart z
    simp [← h] at this
  rcases decays_species c ME x d hd _ hy with h | ⟨z, hz, h⟩ | h | ⟨-, h⟩
  · exact absurd h (hb _)
  · exact absurd h (hb _)
  · simp only [List.mem_cons, List.not_mem_nil, or_false, not_or] at h ha
    tauto
  · exact h

theorem decays_head (x : Meson) : ∀ d ∈ decaysOf A c ME m x, d.left.head? = some (m.get x) := by
  intro d hd
  cases x <;> simp only [decaysOf, decayChargedPion, decayNeutralPion, List.map_cons, List.map_nil] at hd <;>
    fin_cases hd <;> rfl

theorem decays_ne (x : Meson) : decaysOf A c ME m x ≠ [] := by
  cases x <;> simp [decaysOf, decayChargedPion, decayNeutralPion]

theorem decays_live (ok : ChainOk A m) (x : Meson) : ∀ d ∈ decaysOf A c ME m x, Live A d := by
  have l4 : ∀ (p0 p1 p2 p3 : S) (a1 a2 a3 : Bool) (amp : Amp),
      Live A ⟨[p0, p1], [p2, p3], [false, a1], [a2, a3], amp⟩ := fun p0 p1 p2 p3 a1 a2 a3 amp =>
    live_of A _ rfl rfl p0 ((C99_two_two A _ _ _ _ _ _ _ _ _ _).mpr (Or.inl ⟨rfl, rfl⟩))
  have l3 : ∀ (p x y : S) (a1 a2 : Bool) (amp : Amp), A.mass x + A.mass y < A.mass p →
      Live A ⟨[p], [x, y], [false], [a1, a2], amp⟩ := fun p x y a1 a2 amp h =>
    live_of A _ rfl rfl p ((C99_decay A _ _ _ _ _ _ _ h _).mpr (Or.inl ⟨rfl, rfl⟩))
  have l3' : ∀ (p x y : S) (a0 a2 : Bool) (amp : Amp), A.mass x + A.mass y < A.mass p →
      Live A ⟨[p], [x, y], [a0], [true, a2], amp⟩ := fun p x y a1 a2 amp h =>
    live_of A _ rfl rfl x ((C99_decay A _ _ _ _ _ _ _ h _).mpr (Or.inr (Or.inl ⟨rfl, Or.inl rfl⟩)))
  have nil : ∀ d ∈ ([] : List (Decl S)), Live A d := by simp
  cases x <;> simp only [decaysOf, decayChargedPion, decayNeutralPion, List.map_cons, List.map_nil, List.forall_mem_cons]
  · exact ⟨l3 _ _ _ _ _ _ ok.pi0, nil⟩
  · exact ⟨l3 _ _ _ _ _ _ ok.pi, l3' _ _ _ _ _ _ ok.pi, nil⟩
  · exact ⟨l4 .., l4 .., l3 _ _ _ _ _ _ ok.kaon1, l3 _ _ _ _ _ _ ok.kaon2, nil⟩
  · exact ⟨l4 .., l4 .., l4 .., l4 .., nil⟩
  · exact ⟨l3 _ _ _ _ _ _ ok.kaonS1, l3 _ _ _ _ _ _ ok.kaonS2, nil⟩
  · exact ⟨l3 _ _ _ _ _ _ ok.eta, l4 .., l4 .., l4 .., nil⟩
  · exact ⟨l3 _ _ _ _ _ _ ok.rho0, nil⟩
  · exact ⟨l3 _ _ _ _ _ _ ok.rho, nil⟩
  · exact ⟨l4 .., l3 _ _ _ _ _ _ ok.omega, nil⟩
  · exact ⟨l4 .., l4 .., l3 _ _ _ _ _ _ ok.etaP, nil⟩
  · exact ⟨l3 _ _ _ _ _ _ ok.phi1, l3 _ _ _ _ _ _ ok.phi2, l3 _ _ _ _ _ _ ok.phi3, nil⟩

theorem lepton_facts (ok : ChainOk A m) : ∀ d ∈ leptonInteractions A c m.leptons m.neutrinos, Live A d ∧
    (∀ x, m.get x ∉ d.left ++ d.right) ∧ ∀ x, d.left.head? ≠ some (m.get x) := by
  intro d hd
  simp only [leptonInteractions, List.mem_flatMap] at hd
  obtain ⟨l, hl, n, hn, hd⟩ := hd
  split_ifs at hd with h1
  swap; · simp at hd
  simp only [List.mem_flatMap, List.mem_filter, decide_eq_true_eq] at hd
  obtain ⟨l', ⟨hl', e1⟩, n', ⟨hn', e2⟩, hd⟩ := hd
  split_ifs at hd with h2
  swap; · simp at hd
  rw [List.mem_singleton] at hd
  subst hd
  refine ⟨live_of A _ rfl rfl l ((C99_two_two A _ _ _ _ _ _ _ _ _ _).mpr (Or.inl ⟨rfl, rfl⟩)), fun x => ?_, fun x => ?_⟩
  · have := ok.list x
    rw [List.mem_append, not_or] at this
    simp only [leptonsCC, List.cons_append, List.nil_append, List.mem_cons, List.not_mem_nil, or_false]
    rintro (h | h | h | h)
    · exact this.1 (h ▸ hl)
    · exact this.1 (h ▸ hl')
    · exact this.2 (h ▸ hn)
    · exact this.2 (h ▸ hn')
  · have := ok.list x
    rw [List.mem_append, not_or] at this
    simp only [leptonsCC, List.head?_cons, ne_eq, Option.some.injEq]
    intro h
    exact this.1 (h ▸ hl)

/-- State of the list while the chains are declared: `n x` copies of the decays of every meson. -/
structure ChainInv (l : List (Decl S)) (n : Meson → ℕ) (A : LibAttr S) (c : LibConst) (ME : String → ℝ) (m : Chain S) : Prop where
  live : ∀ d ∈ l, Live A d
  chan : ∀ x, channels m l x = (List.replicate (n x) (decaysOf A c ME m x)).flatten
  there : ∀ x, (∃ d ∈ l, m.get x ∈ d.left ++ d.right) ↔ n x ≠ 0
  closed : ∀ x y, n x ≠ 0 → y ∈ descTable x → n y ≠ 0
  mu : (∃ d ∈ l, m.muonP ∈ d.left ++ d.right) ↔ n .pi ≠ 0
  lept : others m l = if m.muon = 0 ∧ n .pi ≠ 0 then leptonInteractions A c m.leptons m.neutrinos else []

theorem channels_append (l l' : List (Decl S)) (x : Meson) : channels m (l ++ l') x = channels m l x ++ channels m l' x :=
  List.filter_append ..

theorem others_append (l l' : List (Decl S)) : others m (l ++ l') = others m l ++ others m l' := List.filter_append ..

theorem channels_decays (ok : ChainOk A m) (x y : Meson) :
    channels m (decaysOf A c ME m x) y = if y = x then decaysOf A c ME m x else [] := by
  unfold channels
  split_ifs with h
  · subst h
    exact List.filter_eq_self.mpr fun d hd => by simp [decays_head c ME y d hd]
  · refine List.filter_eq_nil_iff.mpr fun d hd => ?_
    rw [decays_head c ME x d hd]
    simpa using fun e => h (ok.get e).symm

theorem others_decays (x : Meson) : others m (decaysOf A c ME m x) = [] := by
  unfold others
  refine List.filter_eq_nil_iff.mpr fun d hd => ?_
  simp only [decide_eq_true_eq]
  exact fun h => h x (decays_head c ME x d hd)

theorem exists_append (l l' : List (Decl S)) (P : Decl S → Prop) :
    (∃ d ∈ l ++ l', P d) ↔ (∃ d ∈ l, P d) ∨ ∃ d ∈ l', P d := by
  constructor
  · rintro ⟨d, hd, h⟩
    rcases List.mem_append.mp hd with hd | hd
    · exact Or.inl ⟨d, hd, h⟩
    · exact Or.inr ⟨d, hd, h⟩
  · rintro (⟨d, hd, h⟩ | ⟨d, hd, h⟩)
    · exact ⟨d, List.mem_append_left _ hd, h⟩
    · exact ⟨d, List.mem_append_right _ hd, h⟩

theorem exists_self (x : Meson) : ∃ d ∈ decaysOf A c ME m x, m.get x ∈ d.left ++ d.right := by
  obtain ⟨d, hd⟩ := List.exists_mem_of_ne_nil _ (decays_ne (A := A) (m := m) c ME x)
  refine ⟨d, hd, List.mem_append_left _ ?_⟩
  have := decays_head c ME x d hd
  exact List.mem_of_mem_head? this

/-- Appending the decays of `x` once its descendants are there. -/
theorem inv_append (ok : ChainOk A m) {l : List (Decl S)} {n : Meson → ℕ} (h : ChainInv l n A c ME m) (x : Meson)
    (hx : x ≠ .pi) (hd : ∀ y ∈ descTable x, n y ≠ 0) :
    ChainInv (l ++ decaysOf A c ME m x) (fun y => n y + if y = x then 1 else 0) A c ME m where
  live d hd := by
    rcases List.mem_append.mp hd with hd | hd
    · exact h.live d hd
    · exact decays_live c ME ok x d hd
  chan y := by
    rw [channels_append, h.chan, channels_decays c ME ok]
    split_ifs with e
    · subst e
      rw [List.replicate_succ', List.flatten_append]
      simp
    · simp
  there y := by
    rw [exists_append, h.there]
    constructor
    · rintro (e | ⟨d, hd', e⟩)
      · omega
      · rcases decays_mention c ME ok x y d hd' e with rfl | e
        · simp
        · have := hd y e; omega
    · intro e
      by_cases hyx : y = x
      · subst hyx; exact Or.inr (exists_self c ME y)
      · left; simpa [hyx] using e
  closed y z hy hz := by
    by_cases hyx : y = x
    · subst hyx
      have := hd z hz
      omega
    · have := h.closed y z (by simpa [hyx] using hy) hz
      omega
  mu := by
    rw [exists_append, h.mu]
    simp only [Ne.symm hx, if_false, add_zero]
    constructor
    · rintro (e | ⟨d, hd', e⟩)
      · exact e
      · rcases decays_muon c ME ok x d hd' e with e | e
        · exact absurd e hx
        · exact hd _ e
    · exact Or.inl
  lept := by
    rw [others_append, others_decays, List.append_nil, h.lept]
    simp only [Ne.symm hx, if_false, add_zero]

theorem inv_there (ok : ChainOk A m) {l : List (Decl S)} {n : Meson → ℕ} (h : ChainInv l n A c ME m) (x : Meson) :
    alreadyThere A l (m.get x) = true ↔ n x ≠ 0 := by
  rw [alreadyThere_iff A ok.name l h.live, h.there]

theorem inv_pi (ok : ChainOk A m) {l : List (Decl S)} {n : Meson → ℕ} (h : ChainInv l n A c ME m) :
    ChainInv (piDecay A c m l) (fun y => n y + if y = .pi then 1 else 0) A c ME m := by
  have hmu : alreadyThere A l m.muonP = true ↔ n .pi ≠ 0 := by
    rw [alreadyThere_iff A ok.name l h.live, h.mu]
  have hlep : channels m (leptonInteractions A c m.leptons m.neutrinos) = fun _ => [] := by
    funext x
    refine List.filter_eq_nil_iff.mpr fun d hd => ?_
    simpa using (lepton_facts c ok d hd).2.2 x
  have hoth : others m (leptonInteractions A c m.leptons m.neutrinos) = leptonInteractions A c m.leptons m.neutrinos := by
    refine List.filter_eq_self.mpr fun d hd => ?_
    simpa using (lepton_facts c ok d hd).2.2
  have hmuonpi : ∃ d ∈ decaysOf A c ME m .pi, m.muonP ∈ d.left ++ d.right := by
    refine ⟨_, List.mem_cons_self .., ?_⟩
    simp
  obtain ⟨t, ht, hlive, hchan, hthere, hothers⟩ : ∃ t, piDecay A c m l = l ++ t ++ decaysOf A c ME m .pi ∧
      (∀ d ∈ t, Live A d) ∧ (∀ x, channels m t x = []) ∧ (∀ x, ¬ ∃ d ∈ t, m.get x ∈ d.left ++ d.right) ∧
      others m t = if m.muon = 0 ∧ n .pi = 0 then leptonInteractions A c m.leptons m.neutrinos else [] := by
    unfold piDecay
    dsimp only
    by_cases hc : ¬ (m.muon ≠ 0 ∨ alreadyThere A l m.muonP = true)
    · rw [if_pos hc]
      refine ⟨_, rfl, fun d hd => (lepton_facts c ok d hd).1, fun x => congrFun hlep x, ?_, ?_⟩
      · rintro x ⟨d, hd, e⟩
        exact (lepton_facts c ok d hd).2.1 x e
      · rw [hoth, if_pos]
        rw [hmu] at hc
        push Not at hc
        exact hc
    · rw [if_neg hc]
      refine ⟨[], by simp [decaysOf], by simp, fun x => rfl, by simp, ?_⟩
      rw [if_neg]
      · rfl
      · rw [hmu] at hc
        tauto
  rw [ht]
  refine ⟨?_, ?_, ?_, ?_, ?_, ?_⟩
  · intro d hd
    simp only [List.mem_append] at hd
    rcases hd with (hd | hd) | hd
    · exact h.live d hd
    · exact hlive d hd
    · exact decays_live c ME ok _ d hd
  · intro y
    rw [channels_append, channels_append, h.chan, hchan, channels_decays c ME ok]
    split_ifs with e
    · subst e
      rw [List.replicate_succ', List.flatten_append]
      simp
    · simp
  · intro y
    rw [exists_append, exists_append, h.there]
    constructor
    · rintro ((e | e) | ⟨d, hd', e⟩)
      · omega
      · exact absurd e (hthere y)
      · rcases decays_mention c ME ok _ y d hd' e with rfl | e
        · simp
        · simp [descTable] at e
    · intro e
      by_cases hyx : y = .pi
      · subst hyx; exact Or.inr (exists_self c ME _)
      · left; left; simpa [hyx] using e
  · intro y z hy hz
    by_cases hyx : y = .pi
    · subst hyx
      simp [descTable] at hz
    · have := h.closed y z (by simpa [hyx] using hy) hz
      omega
  · rw [exists_append]
    exact ⟨fun _ => by simp, fun _ => Or.inr hmuonpi⟩
  · rw [others_append, others_append, others_decays, List.append_nil, h.lept, hothers]
    by_cases h1 : m.muon = 0 <;> by_cases h2 : n .pi = 0 <;> simp [h1, h2]

/-- Abstract effect of declaring the decays of `x`. -/
def chainStep (x : Meson) (n : Meson → ℕ) : Meson → ℕ :=
  fun y => n y + (if y = x then 1 else 0) + if y ∈ descTable x ∧ n y = 0 then 1 else 0

theorem inv_unless (ok : ChainOk A m) {l : List (Decl S)} {n n' : Meson → ℕ} {f : List (Decl S) → List (Decl S)}
    (h : ChainInv l n A c ME m) (x : Meson) (hf : ChainInv (f l) n' A c ME m) :
    ChainInv (if alreadyThere A l (m.get x) = true then l else f l) (fun y => if n x = 0 then n' y else n y) A c ME m := by
  by_cases e : n x = 0
  · rw [if_neg (by rw [inv_there c ME ok h]; simpa using e)]
    simpa [e] using hf
  · rw [if_pos (by rw [inv_there c ME ok h]; exact e)]
    simpa [e] using h

theorem ChainInv.congr {l : List (Decl S)} {n n' : Meson → ℕ} (h : ChainInv l n A c ME m) (e : n = n') :
    ChainInv l n' A c ME m := e ▸ h

theorem inv_pi0 (ok : ChainOk A m) {l : List (Decl S)} {n : Meson → ℕ} (h : ChainInv l n A c ME m) :
    ChainInv (pi0Decay A c m l) (fun y => n y + if y = .pi0 then 1 else 0) A c ME m :=
  inv_append c ME ok h .pi0 (by simp) (by simp [descTable])

theorem inv_with (ok : ChainOk A m) {l : List (Decl S)} {n : Meson → ℕ} (h : ChainInv l n A c ME m) :
    ChainInv (withPi0 A c m (withPi A c m l)) (fun y => n y + if y ∈ [Meson.pi, .pi0] ∧ n y = 0 then 1 else 0) A c ME m := by
  have h1 := inv_unless c ME ok h .pi (inv_pi c ME ok h)
  have h2 := inv_unless c ME ok h1 .pi0 (inv_pi0 c ME ok h1)
  refine h2.congr _ _ ?_
  funext y
  by_cases e1 : n .pi = 0 <;> by_cases e2 : n .pi0 = 0 <;> cases y <;> simp [e1, e2]

theorem inv_withPi (ok : ChainOk A m) {l : List (Decl S)} {n : Meson → ℕ} (h : ChainInv l n A c ME m) :
    ChainInv (withPi A c m l) (fun y => n y + if y ∈ [Meson.pi] ∧ n y = 0 then 1 else 0) A c ME m := by
  have h1 := inv_unless c ME ok h .pi (inv_pi c ME ok h)
  refine h1.congr _ _ ?_
  funext y
  by_cases e1 : n .pi = 0 <;> cases y <;> simp [e1]

theorem append_assoc_eq (l : List (Decl S)) (x : Meson) (t : List (Decl S)) (h : t = decaysOf A c ME m x) :
    l ++ t = l ++ decaysOf A c ME m x := by rw [h]

/-- The simple mesons. -/
theorem inv_simple (ok : ChainOk A m) {l : List (Decl S)} {n : Meson → ℕ} (h : ChainInv l n A c ME m) (x : Meson)
    (hx : x ∈ [Meson.kaon, .kaonL, .kaonS, .eta, .rho, .omega]) :
    ChainInv (withPi0 A c m (withPi A c m l) ++ decaysOf A c ME m x) (chainStep x n) A c ME m := by
  have h1 := inv_with c ME ok h
  have hne : x ≠ .pi := by rintro rfl; simp at hx
  have hdt : descTable x = [.pi, .pi0] := by
    simp only [List.mem_cons, List.not_mem_nil, or_false] at hx
    rcases hx with rfl | rfl | rfl | rfl | rfl | rfl <;> rfl
  have h2 := inv_append c ME ok h1 x hne (by
    rw [hdt]
    intro y hy
    by_cases e : n y = 0
    · simp [hy, e]
    · omega)
  refine h2.congr _ _ ?_
  funext y
  unfold chainStep
  rw [hdt]
  omega

theorem inv_kaon (ok : ChainOk A m) {l : List (Decl S)} {n : Meson → ℕ} (h : ChainInv l n A c ME m) :
    ChainInv (kaonDecay A c ME m l) (chainStep .kaon n) A c ME m := by
  have := inv_simple c ME ok h .kaon (by simp)
  simpa only [kaonDecay, fourMeson, threeMeson, decaysOf, weakConst, constElement, List.append_assoc, List.cons_append, List.nil_append] using this

theorem inv_kaonL (ok : ChainOk A m) {l : List (Decl S)} {n : Meson → ℕ} (h : ChainInv l n A c ME m) :
    ChainInv (kaonLDecay A c ME m l) (chainStep .kaonL n) A c ME m := by
  have := inv_simple c ME ok h .kaonL (by simp)
  simpa only [kaonLDecay, fourMeson, threeMeson, decaysOf, weakConst, constElement, List.append_assoc, List.cons_append, List.nil_append] using this

theorem inv_kaonS (ok : ChainOk A m) {l : List (Decl S)} {n : Meson → ℕ} (h : ChainInv l n A c ME m) :
    ChainInv (kaonSDecay A c ME m l) (chainStep .kaonS n) A c ME m := by
  have := inv_simple c ME ok h .kaonS (by simp)
  simpa only [kaonSDecay, fourMeson, threeMeson, decaysOf, weakConst, constElement, List.append_assoc, List.cons_append, List.nil_append] using this

theorem inv_eta (ok : ChainOk A m) {l : List (Decl S)} {n : Meson → ℕ} (h : ChainInv l n A c ME m) :
    ChainInv (etaDecay A c ME m l) (chainStep .eta n) A c ME m := by
  have := inv_simple c ME ok h .eta (by simp)
  simpa only [etaDecay, fourMeson, threeMeson, decaysOf, weakConst, constElement, List.append_assoc, List.cons_append, List.nil_append] using this

theorem inv_rho (ok : ChainOk A m) {l : List (Decl S)} {n : Meson → ℕ} (h : ChainInv l n A c ME m) :
    ChainInv (rhoDecay A c ME m l) (chainStep .rho n) A c ME m := by
  have := inv_simple c ME ok h .rho (by simp)
  simpa only [rhoDecay, fourMeson, threeMeson, decaysOf, weakConst, constElement, List.append_assoc, List.cons_append, List.nil_append] using this

theorem inv_omega (ok : ChainOk A m) {l : List (Decl S)} {n : Meson → ℕ} (h : ChainInv l n A c ME m) :
    ChainInv (omegaDecay A c ME m l) (chainStep .omega n) A c ME m := by
  have := inv_simple c ME ok h .omega (by simp)
  simpa only [omegaDecay, fourMeson, threeMeson, decaysOf, weakConst, constElement, List.append_assoc, List.cons_append, List.nil_append] using this

theorem inv_rho0 (ok : ChainOk A m) {l : List (Decl S)} {n : Meson → ℕ} (h : ChainInv l n A c ME m) :
    ChainInv (rho0Decay A c ME m l) (chainStep .rho0 n) A c ME m := by
  have h1 := inv_withPi c ME ok h
  have h2 := inv_append c ME ok h1 .rho0 (by simp) (by
    intro y hy
    by_cases e : n y = 0
    · simp only [descTable] at hy; simp [hy, e]
    · omega)
  refine h2.congr _ _ ?_
  funext y
  unfold chainStep descTable
  dsimp only
  omega

/-- Abstract effect of including what is missing of `L`. -/
def ensure (L : List Meson) (n : Meson → ℕ) : Meson → ℕ := fun y => n y + if y ∈ L ∧ n y = 0 then 1 else 0

theorem ensure_ensure (L L' : List Meson) (n : Meson → ℕ) : ensure L (ensure L' n) = ensure (L' ++ L) n := by
  funext y
  unfold ensure
  by_cases h0 : n y = 0 <;> by_cases h1 : y ∈ L <;> by_cases h2 : y ∈ L' <;> simp [h0, h1, h2]

theorem ensure_congr (L L' : List Meson) (n : Meson → ℕ) (h : ∀ y, y ∈ L ↔ y ∈ L') : ensure L n = ensure L' n := by
  funext y
  unfold ensure
  simp only [h]

theorem ensure_unless (x : Meson) (n : Meson → ℕ) (hc : ∀ y, n x ≠ 0 → y ∈ descTable x → n y ≠ 0) :
    (fun y => if n x = 0 then chainStep x n y else n y) = ensure (x :: descTable x) n := by
  have hself : x ∉ descTable x := by cases x <;> simp [descTable]
  funext y
  unfold ensure chainStep
  by_cases h0 : n x = 0
  · rw [if_pos h0]
    by_cases e : y = x
    · subst e; simp [h0, hself]
    · simp [e]
  · rw [if_neg h0]
    by_cases e : y ∈ x :: descTable x
    · have : n y ≠ 0 := by
        rcases List.mem_cons.mp e with rfl | e
        · exact h0
        · exact hc y h0 e
      simp [this]
    · simp [e]

theorem ChainInv.ensured (ok : ChainOk A m) {l : List (Decl S)} {n : Meson → ℕ} {f : List (Decl S) → List (Decl S)} (x : Meson)
    (h : ChainInv l n A c ME m) (hf : ChainInv (f l) (chainStep x n) A c ME m) :
    ChainInv (if alreadyThere A l (m.get x) = true then l else f l) (ensure (x :: descTable x) n) A c ME m :=
  (inv_unless c ME ok h x hf).congr c ME (ensure_unless x n fun y => h.closed x y)

theorem ChainInv.finish (ok : ChainOk A m) {l : List (Decl S)} {n : Meson → ℕ} (x : Meson) (hx : x ≠ .pi) (L : List Meson)
    (h : ChainInv l (ensure L n) A c ME m) (hL : ∀ y, y ∈ L ↔ y ∈ descTable x) :
    ChainInv (l ++ decaysOf A c ME m x) (chainStep x n) A c ME m := by
  rw [ensure_congr _ _ n hL] at h
  have h2 := inv_append c ME ok h x hx (by
    intro y hy
    unfold ensure
    by_cases e : n y = 0
    · simp [hy, e]
    · omega)
  refine h2.congr c ME ?_
  funext y
  unfold chainStep ensure
  omega

theorem inv_etaP (ok : ChainOk A m) {l : List (Decl S)} {n : Meson → ℕ} (h : ChainInv l n A c ME m) :
    ChainInv (etaPDecay A c ME m l) (chainStep .etaP n) A c ME m := by
  have h1 := h.ensured c ME ok .rho0 (inv_rho0 c ME ok h)
  have h2 := h1.ensured c ME ok .eta (inv_eta c ME ok h1)
  have h3 := inv_with c ME ok h2
  change ChainInv _ (ensure [.pi, .pi0] _) A c ME m at h3
  rw [ensure_ensure, ensure_ensure] at h3
  have h4 := h3.finish c ME ok .etaP (by simp) _ (by intro y; cases y <;> simp [descTable])
  simp only [etaPDecay, fourMeson, threeMeson, List.append_assoc, List.cons_append, List.nil_append]
  exact h4

theorem inv_phi (ok : ChainOk A m) {l : List (Decl S)} {n : Meson → ℕ} (h : ChainInv l n A c ME m) :
    ChainInv (phiDecay A c ME m l) (chainStep .phi n) A c ME m := by
  have h1 := h.ensured c ME ok .rho0 (inv_rho0 c ME ok h)
  have h2 := h1.ensured c ME ok .kaon (inv_kaon c ME ok h1)
  have h3 := h2.ensured c ME ok .kaonL (inv_kaonL c ME ok h2)
  have h4 := h3.ensured c ME ok .kaonS (inv_kaonS c ME ok h3)
  have h5 := h4.ensured c ME ok .pi0 (f := pi0Decay A c m) ((inv_pi0 c ME ok h4).congr c ME (by
    funext y; simp [chainStep, descTable]))
  simp only [ensure_ensure] at h5
  have h6 := h5.finish c ME ok .phi (by simp) _ (by intro y; cases y <;> simp [descTable])
  simp only [phiDecay, withPi0, fourMeson, threeMeson, List.append_assoc, List.cons_append, List.nil_append]
  exact h6

/-- One pass of the final loop. -/
theorem inv_meson (ok : ChainOk A m) {l : List (Decl S)} {n : Meson → ℕ} (h : ChainInv l n A c ME m) (x : Meson) :
    ChainInv (mesonDecay A c ME m x l) (chainStep x n) A c ME m := by
  cases x
  · exact (inv_pi0 c ME ok h).congr c ME (by funext y; simp [chainStep, descTable])
  · exact (inv_pi c ME ok h).congr c ME (by funext y; simp [chainStep, descTable])
  · exact inv_kaon c ME ok h
  · exact inv_kaonL c ME ok h
  · exact inv_kaonS c ME ok h
  · exact inv_eta c ME ok h
  · exact inv_rho0 c ME ok h
  · exact inv_rho c ME ok h
  · exact inv_omega c ME ok h
  · exact inv_etaP c ME ok h
  · exact inv_phi c ME ok h

theorem inv_nil : ChainInv ([] : List (Decl S)) (fun _ => 0) A c ME m :=
  ⟨by simp, fun x => rfl, by simp, by simp, by simp, by simp [others]⟩

theorem decays_products (x : Meson) : ∀ d ∈ decaysOf A c ME m x, ∀ s ∈ d.left.tail ++ d.right,
    (∃ z ∈ descTable x, s = m.get z) ∨ s ∈ [m.photon, m.electron, m.muonP, m.nuE, m.nuMu] := by
  intro d hd s hs
  cases x <;> simp only [decaysOf, decayChargedPion, decayNeutralPion, List.map_cons, List.map_nil] at hd <;>
    fin_cases hd <;> fin_cases hs <;> simp [descTable, Chain.get]

/-- The table of descendants is the transitive closure of the decay table. -/
theorem descends_iff (ok : ChainOk A m) (x y : Meson) : Descends A c ME m x y ↔ y ∈ descTable x := by
  have hD : ∀ x y, Daughter A c ME m x y → y ∈ descTable x := by
    rintro x y ⟨d, hd, hy⟩
    rcases decays_products c ME x d hd _ hy with ⟨z, hz, e⟩ | h
    · rw [ok.get e]; exact hz
    · exact absurd h (ok.apart y)
  constructor
  · intro h
    induction h with
    | single h => exact hD _ _ h
    | tail _ h ih =>
      have h' := hD _ _ h
      revert ih h'
      generalize x = a
      rename_i b e _
      cases a <;> cases b <;> simp [descTable] <;> cases e <;> simp
  · intro h
    have s0 : Daughter A c ME m .rho0 .pi := by simp [Daughter, decaysOf, Chain.get]
    have s1 : Daughter A c ME m .phi .rho0 := by simp [Daughter, decaysOf, Chain.get]
    by_cases hp : x = .phi ∧ y = .pi
    · obtain ⟨rfl, rfl⟩ := hp
      exact .tail (.single s1) s0
    · refine .single ?_
      cases x <;> simp only [descTable, List.mem_cons, List.not_mem_nil, or_false] at h <;>
        (try rcases h with rfl | rfl | rfl | rfl | rfl | rfl) <;> (try rcases h with rfl | rfl | rfl | rfl) <;>
        (try rcases h with rfl | rfl) <;> (try subst h) <;>
        first | (exfalso; exact hp ⟨rfl, rfl⟩) | simp [Daughter, decaysOf, Chain.get]

theorem reached_append (pre : List Meson) (y x : Meson) :
    Reached A c ME m (pre ++ [y]) x ↔ Reached A c ME m pre x ∨ y = x ∨ Descends A c ME m y x := by
  unfold Reached
  simp only [List.mem_append, List.mem_singleton]
  constructor
  · rintro ⟨z, hz | rfl, h⟩
    · exact Or.inl ⟨z, hz, h⟩
    · exact Or.inr h
  · rintro (⟨z, hz, h⟩ | h)
    · exact ⟨z, Or.inl hz, h⟩
    · exact ⟨y, Or.inr rfl, h⟩

theorem reached_times (primary : List Meson) (x : Meson) : times A c ME m primary x ≠ 0 ↔ Reached A c ME m primary x := by
  classical
  unfold times
  constructor
  · intro h
    by_cases h1 : x ∈ primary
    · exact ⟨x, h1, Or.inl rfl⟩
    · rw [List.count_eq_zero_of_not_mem h1, zero_add] at h
      by_cases h2 : ∃ pre y post, primary = pre ++ y :: post ∧ Descends A c ME m y x ∧ ¬ Reached A c ME m pre x
      · obtain ⟨pre, y, post, rfl, hy, -⟩ := h2
        exact ⟨y, by simp, Or.inr hy⟩
      · rw [if_neg h2] at h
        exact absurd rfl h
  · intro h
    by_cases h1 : x ∈ primary
    · have := List.count_pos_iff.mpr h1
      omega
    · have : ∃ pre y post, primary = pre ++ y :: post ∧ Descends A c ME m y x ∧ ¬ Reached A c ME m pre x := by
        induction primary using List.reverseRecOn with
        | nil => obtain ⟨z, hz, -⟩ := h; simp at hz
        | append_singleton pre y ih =>
          by_cases hr : Reached A c ME m pre x
          · obtain ⟨p, z, q, rfl, h2, h3⟩ := ih hr fun hm => h1 (List.mem_append_left _ hm)
            exact ⟨p, z, q ++ [y], by simp, h2, h3⟩
          · rcases (reached_append c ME pre y x).mp h with h | rfl | h
            · exact absurd h hr
            · simp at h1
            · exact ⟨pre, y, [], rfl, h, hr⟩
      rw [if_pos this]
      omega

theorem times_append (pre : List Meson) (y x : Meson) : times A c ME m (pre ++ [y]) x =
    open Classical in
    times A c ME m pre x + (if x = y then 1 else 0) + if Descends A c ME m y x ∧ ¬ Reached A c ME m pre x then 1 else 0 := by
  classical
  have hcount : (pre ++ [y]).count x = pre.count x + if x = y then 1 else 0 := by
    rw [List.count_append, List.count_singleton]
    by_cases h : x = y
    · subst h; simp
    · simp [h, Ne.symm h]
  have hex : (∃ p z q, pre ++ [y] = p ++ z :: q ∧ Descends A c ME m z x ∧ ¬ Reached A c ME m p x) ↔
      (∃ p z q, pre = p ++ z :: q ∧ Descends A c ME m z x ∧ ¬ Reached A c ME m p x) ∨
        (Descends A c ME m y x ∧ ¬ Reached A c ME m pre x) := by
    constructor
    · rintro ⟨p, z, q, e, h1, h2⟩
      rcases List.eq_nil_or_concat q with rfl | ⟨q', w, rfl⟩
      · obtain ⟨rfl, e2⟩ := List.append_inj' e rfl
        obtain rfl := List.singleton_inj.mp e2
        exact Or.inr ⟨h1, h2⟩
      · left
        rw [List.concat_eq_append, ← List.cons_append, ← List.append_assoc] at e
        obtain ⟨e1, -⟩ := List.append_inj' e rfl
        exact ⟨p, z, q', e1, h1, h2⟩
    · rintro (⟨p, z, q, rfl, h1, h2⟩ | ⟨h1, h2⟩)
      · exact ⟨p, z, q ++ [y], by simp, h1, h2⟩
      · exact ⟨pre, y, [], rfl, h1, h2⟩
  have hexcl : (∃ p z q, pre = p ++ z :: q ∧ Descends A c ME m z x ∧ ¬ Reached A c ME m p x) → Reached A c ME m pre x := by
    rintro ⟨p, z, q, rfl, h1, -⟩
    exact ⟨z, by simp, Or.inr h1⟩
  unfold times
  rw [hcount]
  by_cases h1 : ∃ p z q, pre = p ++ z :: q ∧ Descends A c ME m z x ∧ ¬ Reached A c ME m p x
  · rw [if_pos (hex.mpr (Or.inl h1)), if_pos h1, if_neg (c := Descends A c ME m y x ∧ ¬ Reached A c ME m pre x) (fun h => h.2 (hexcl h1))]
    omega
  · by_cases h2 : Descends A c ME m y x ∧ ¬ Reached A c ME m pre x
    · rw [if_pos (hex.mpr (Or.inr h2)), if_neg h1, if_pos h2]
      omega
    · rw [if_neg (fun h => (hex.mp h).elim h1 h2), if_neg h1, if_neg h2]
      omega

theorem inv_all (ok : ChainOk A m) (primary : List Meson) :
    ChainInv (mesonInteractions A c ME m primary) (times A c ME m primary) A c ME m := by
  classical
  induction primary using List.reverseRecOn with
  | nil =>
    refine (inv_nil (A := A) (m := m) c ME).congr c ME ?_
    funext x
    unfold times
    rw [if_neg]
    · simp
    · rintro ⟨p, y, q, e, -⟩
      simp at e
  | append_singleton pre y ih =>
    unfold mesonInteractions
    rw [List.foldl_append, List.foldl_cons, List.foldl_nil]
    refine (inv_meson c ME ok ih y).congr c ME ?_
    funext x
    rw [times_append]
    unfold chainStep
    congr 1
    have : (x ∈ descTable y ∧ times A c ME m pre x = 0) ↔ (Descends A c ME m y x ∧ ¬ Reached A c ME m pre x) := by
      rw [descends_iff c ME ok, ← reached_times, not_not]
    simp only [this]

/-! ## Theorems -/

/-- **C100 (what is declared).** For every list of primary mesons, the decays of the meson `x` declared by
`meson_interactions` are the table of its channels, repeated as many times as specified; besides meson decays it declares
the lepton interactions, once, if some pion occurs and the muon interactions were not declared elsewhere. -/
theorem C100_declared (ok : ChainOk A m) (primary : List Meson) :
    (∀ x, channels m (mesonInteractions A c ME m primary) x =
      (List.replicate (times A c ME m primary x) (decaysOf A c ME m x)).flatten) ∧
    others m (mesonInteractions A c ME m primary) =
      open Classical in
      if m.muon = 0 ∧ Reached A c ME m primary .pi then leptonInteractions A c m.leptons m.neutrinos else [] := by
  have h := inv_all c ME ok primary
  refine ⟨h.chan, ?_⟩
  rw [h.lept]
  by_cases h1 : m.muon = 0 ∧ Reached A c ME m primary .pi
  · rw [if_pos h1, if_pos ⟨h1.1, (reached_times c ME primary .pi).mpr h1.2⟩]
  · rw [if_neg h1, if_neg fun h2 => h1 ⟨h2.1, (reached_times c ME primary .pi).mp h2.2⟩]

/-- **C100 (closed).** Every meson that occurs in any declared reaction has all its decays declared: nothing unstable is
left without decay. -/
theorem C100_closed (ok : ChainOk A m) (primary : List Meson) (d : Decl S) (hd : d ∈ mesonInteractions A c ME m primary)
    (x : Meson) (hx : m.get x ∈ d.left ++ d.right) : ∀ e ∈ decaysOf A c ME m x, e ∈ mesonInteractions A c ME m primary := by
  have h := inv_all c ME ok primary
  have hn := (h.there x).mp ⟨d, hd, hx⟩
  intro e he
  have : e ∈ channels m (mesonInteractions A c ME m primary) x := by
    rw [h.chan x]
    exact List.mem_flatten.mpr ⟨_, List.mem_replicate.mpr ⟨hn, rfl⟩, he⟩
  exact (List.mem_filter.mp this).1

/-- **C100 (muons).** If muons occur, their interactions are declared, here or elsewhere. -/
theorem C100_muons (ok : ChainOk A m) (primary : List Meson) (d : Decl S) (hd : d ∈ mesonInteractions A c ME m primary)
    (hx : m.muonP ∈ d.left ++ d.right) :
    m.muon ≠ 0 ∨ ∀ e ∈ leptonInteractions A c m.leptons m.neutrinos, e ∈ mesonInteractions A c ME m primary := by
  have h := inv_all c ME ok primary
  by_cases h0 : m.muon = 0
  · right
    intro e he
    have hn := h.mu.mp ⟨d, hd, hx⟩
    have hl := h.lept
    rw [if_pos ⟨h0, hn⟩] at hl
    have : e ∈ others m (mesonInteractions A c ME m primary) := by rw [hl]; exact he
    exact (List.mem_filter.mp this).1
  · exact Or.inl h0

/-- **C100 (once).** If no primary meson is repeated or appears in the decay chain of an earlier one (for instance in
ascending order of mass), every decay is declared exactly once. -/
theorem C100_once (ok : ChainOk A m) (primary : List Meson)
    (ho : primary.Pairwise fun x y => x ≠ y ∧ ¬ Descends A c ME m x y) (x : Meson) :
    channels m (mesonInteractions A c ME m primary) x =
      open Classical in if Reached A c ME m primary x then decaysOf A c ME m x else [] := by
  classical
  rw [(C100_declared c ME ok primary).1 x]
  by_cases hr : Reached A c ME m primary x
  · rw [if_pos hr]
    have h1 : times A c ME m primary x = 1 := by
      have hne := (reached_times (A := A) (m := m) c ME primary x).mpr hr
      have hnd : primary.Nodup := ho.imp fun h => h.1
      have hc := List.nodup_iff_count_le_one.mp hnd x
      unfold times at hne ⊢
      by_cases h2 : ∃ pre y post, primary = pre ++ y :: post ∧ Descends A c ME m y x ∧ ¬ Reached A c ME m pre x
      · rw [if_pos h2]
        obtain ⟨pre, y, post, rfl, h3, h4⟩ := h2
        have : x ∉ pre ++ y :: post := by
          intro hx
          rcases List.mem_append.mp hx with hx | hx
          · exact h4 ⟨x, hx, Or.inl rfl⟩
          · rcases List.mem_cons.mp hx with rfl | hx
            · rw [descends_iff c ME ok] at h3
              cases x <;> simp [descTable] at h3
            · have := (List.pairwise_append.mp ho).2.1
              exact ((List.pairwise_cons.mp this).1 x hx).2 h3
        rw [List.count_eq_zero_of_not_mem this]
      · rw [if_neg h2] at hne ⊢
        omega
    rw [h1]
    simp
  · rw [if_neg hr]
    have h1 : times A c ME m primary x = 0 := by
      by_contra h
      exact hr ((reached_times c ME primary x).mp h)
    rw [h1]
    rfl

/-- **C100 (duplicates).** In the other order the decays are declared twice, and so every rate of the chain is doubled: the
final loop does not ask whether a primary meson is there already. -/
theorem C100_once_refuted (ok : ChainOk A m) (pre : List Meson) (x y : Meson) (hxy : Descends A c ME m x y)
    (hpre : ¬ Reached A c ME m pre y) : channels m (mesonInteractions A c ME m (pre ++ [x, y])) y =
      decaysOf A c ME m y ++ decaysOf A c ME m y := by
  classical
  rw [(C100_declared c ME ok _).1 y]
  have hne : y ≠ x := by
    rintro rfl
    rw [descends_iff c ME ok] at hxy
    cases y <;> simp [descTable] at hxy
  have h0 : times A c ME m pre y = 0 := by
    by_contra h
    exact hpre ((reached_times c ME pre y).mp h)
  have : times A c ME m (pre ++ [x, y]) y = 2 := by
    rw [show pre ++ [x, y] = (pre ++ [x]) ++ [y] by simp, times_append, times_append, h0, if_neg hne, if_pos ⟨hxy, hpre⟩,
      if_pos rfl, if_neg]
    intro h
    exact h.2 ((reached_append c ME pre x y).mpr (Or.inr (Or.inr hxy)))
  rw [this]
  simp [List.replicate]

end

/-- The shipped templates satisfy the hypotheses. -/
theorem tmpl_chain_ok (MeV : ℝ) (hM : 0 < MeV) (mN : ℚ) (leptons neutrinos : List Tmpl)
    (hl : ∀ x ∈ leptons, x ∈ [Tmpl.electron, .muon, .tau]) (hn : ∀ x ∈ neutrinos, x ∈ [Tmpl.nuE, .nuMu, .nuTau]) (muon : ℕ) :
    ChainOk (tmplAttr MeV mN) (tmplChain leptons neutrinos muon) where
  name := by
    intro a b h
    cases a <;> cases b <;> first | rfl | (exfalso; revert h; simp [tmplAttr, Tmpl.name])
  get := by
    intro a b h
    cases a <;> cases b <;> first | rfl | (exfalso; revert h; simp [tmplChain, Chain.get])
  apart x := by cases x <;> simp [tmplChain, Chain.get]
  list x := by
    intro h
    rcases List.mem_append.mp h with h | h
    · have := hl _ h
      cases x <;> simp [tmplChain, Chain.get] at this
    · have := hn _ h
      cases x <;> simp [tmplChain, Chain.get] at this
  muon := by simp [tmplChain]
  pi0 := by simp only [tmplChain, tmplAttr, Tmpl.mass]; norm_num; nlinarith
  pi := by simp only [tmplChain, tmplAttr, Tmpl.mass]; norm_num; nlinarith
  kaon1 := by simp only [tmplChain, tmplAttr, Tmpl.mass]; norm_num; nlinarith
  kaon2 := by simp only [tmplChain, tmplAttr, Tmpl.mass]; norm_num; nlinarith
  kaonS1 := by simp only [tmplChain, tmplAttr, Tmpl.mass]; norm_num; nlinarith
  kaonS2 := by simp only [tmplChain, tmplAttr, Tmpl.mass]; norm_num; nlinarith
  eta := by simp only [tmplChain, tmplAttr, Tmpl.mass]; norm_num; nlinarith
  rho0 := by simp only [tmplChain, tmplAttr, Tmpl.mass]; norm_num; nlinarith
  rho := by simp only [tmplChain, tmplAttr, Tmpl.mass]; norm_num; nlinarith
  omega := by simp only [tmplChain, tmplAttr, Tmpl.mass]; norm_num; nlinarith
  etaP := by simp only [tmplChain, tmplAttr, Tmpl.mass]; norm_num; nlinarith
  phi1 := by simp only [tmplChain, tmplAttr, Tmpl.mass]; norm_num; nlinarith
  phi2 := by simp only [tmplChain, tmplAttr, Tmpl.mass]; norm_num; nlinarith
  phi3 := by simp only [tmplChain, tmplAttr, Tmpl.mass]; norm_num; nlinarith

/-- The names by which the program recognises the particles of the chains. -/
def mesonName : Meson → String
  | .pi0 => "Neutral pion" | .pi => "Charged pion" | .kaon => "Charged kaon" | .kaonL => "Kaon long"
  | .kaonS => "Kaon short" | .eta => "Eta" | .rho0 => "Neutral rho" | .rho => "Charged rho" | .omega => "Omega"
  | .etaP => "Eta prime" | .phi => "Phi"

/-- **C100 (names).** With the shipped templates the decays of a meson of the chain are declared for the particle which carries its
name, and electrons, muons, their neutrinos and photons among the products are the particles with these names. -/
theorem C100_names (MeV : ℝ) (mN : ℚ) (leptons neutrinos : List Tmpl) (muon : ℕ) :
    let m := tmplChain leptons neutrinos muon
    (∀ x t, (tmplAttr MeV mN).name t = mesonName x ↔ t = m.get x) ∧
    (∀ t, (tmplAttr MeV mN).name t = "Photon" ↔ t = m.photon) ∧
    (∀ t, (tmplAttr MeV mN).name t = "Electron" ↔ t = m.electron) ∧
    (∀ t, (tmplAttr MeV mN).name t = "Muon" ↔ t = m.muonP) ∧
    (∀ t, (tmplAttr MeV mN).name t = "Electron neutrino" ↔ t = m.nuE) ∧
    (∀ t, (tmplAttr MeV mN).name t = "Muon neutrino" ↔ t = m.nuMu) := by
  refine ⟨fun x t => ?_, fun t => ?_, fun t => ?_, fun t => ?_, fun t => ?_, fun t => ?_⟩
  · cases x <;> cases t <;> simp [tmplChain, Chain.get, tmplAttr, Tmpl.name, mesonName]
  all_goals cases t <;> simp [tmplChain, tmplAttr, Tmpl.name]

/-- Declaring neutral rho mesons and then charged pions declares the pion decay twice. -/
example (MeV : ℝ) (hM : 0 < MeV) (mN : ℚ) (c : LibConst) (ME : String → ℝ) (muon : ℕ) :
    let m := tmplChain [.electron, .muon, .tau] [.nuE, .nuMu, .nuTau] muon
    channels m (mesonInteractions (tmplAttr MeV mN) c ME m [.rho0, .pi]) .pi =
      decaysOf (tmplAttr MeV mN) c ME m .pi ++ decaysOf (tmplAttr MeV mN) c ME m .pi := by
  intro m
  have ok : ChainOk (tmplAttr MeV mN) m := tmpl_chain_ok MeV hM mN _ _ (by simp) (by simp) muon
  refine C100_once_refuted c ME ok [] .rho0 .pi ?_ ?_
  · rw [descends_iff c ME ok]; simp [descTable]
  · rintro ⟨y, hy, -⟩; simp at hy

/-- In the order pions, rho mesons, phi mesons everything is declared once. -/
example (MeV : ℝ) (hM : 0 < MeV) (mN : ℚ) (c : LibConst) (ME : String → ℝ) (muon : ℕ) :
    let m := tmplChain [.electron, .muon, .tau] [.nuE, .nuMu, .nuTau] muon
    ([.pi0, .pi, .rho0, .phi] : List Meson).Pairwise fun x y => x ≠ y ∧ ¬ Descends (tmplAttr MeV mN) c ME m x y := by
  intro m
  have ok : ChainOk (tmplAttr MeV mN) m := tmpl_chain_ok MeV hM mN _ _ (by simp) (by simp) muon
  simp [descends_iff c ME ok, descTable]

end PyBBN
