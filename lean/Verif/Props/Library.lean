import Verif.Model.Templates
import Verif.Props.Crossing
import Mathlib.Tactic.Ring
import Mathlib.Tactic.Abel
import Mathlib.Tactic.LinearCombination
/-!
# C98: conservation laws of the declared interactions
-/
namespace PyBBN

set_option linter.unusedSectionVars false

section
variable {S : Type*} [DecidableEq S] {G : Type*} [AddCommGroup G]

/-! ## Specification -/

/-- Charge of one side: antiparticles count with the opposite sign. -/
def sideCharge (q : S → G) (ps : List S) (as : List Bool) : G :=
  ((ps.zip as).map fun x => if x.2 then -q x.1 else q x.1).sum

/-- The declared reaction conserves the additive charge `q`. -/
def Conserves (q : S → G) (d : Decl S) : Prop := sideCharge q d.left d.antiL = sideCharge q d.right d.antiR

/-- A charge that is conserved by the weak vertices: a neutrino and the lepton of the same flavour differ by the charge
`w` of the W boson.  Electric charge has `w = 1`; the lepton numbers and baryon number have `w = 0`. -/
def VertexLepton (A : LibAttr S) (q : S → G) (w : G) (leptons neutrinos : List S) : Prop :=
  ∀ l ∈ leptons, ∀ n ∈ neutrinos, A.flavour n = A.flavour l → q n = q l + w

/-- The same for the particles of the meson chains. -/
structure VertexChain (A : LibAttr S) (q : S → G) (w : G) (m : Chain S) : Prop where
  photon : q m.photon = 0
  pi0 : q m.pi0 = 0
  kaonL : q m.kaonL = 0
  kaonS : q m.kaonS = 0
  eta : q m.eta = 0
  rho0 : q m.rho0 = 0
  omega : q m.omega = 0
  etaP : q m.etaP = 0
  phi : q m.phi = 0
  pi : q m.pi = -w
  kaon : q m.kaon = -w
  rho : q m.rho = -w
  nuE : q m.nuE = q m.electron + w
  nuMu : q m.nuMu = q m.muonP + w
  leptons : VertexLepton A q w m.leptons m.neutrinos

/-- Balance of the legs. -/
theorem legs_charge (q : S → G) (p0 p1 : List S) (a0 a1 : List Bool) :
    ((legs p0 p1 a0 a1).map (legCharge q)).sum = sideCharge q p1 a1 - sideCharge q p0 a0 := by
  have key : ∀ (k : ℤ) (l : List (S × Bool)) (j : ℕ → ℕ),
      ((l.mapIdx fun i x => (⟨k, x.1, x.2, j i, false⟩ : Item S)).map (legCharge q)).sum =
        k • (l.map fun x => if x.2 then -q x.1 else q x.1).sum := by
    intro k l
    induction l with
    | nil => intro j; simp
    | cons x l ih =>
      intro j
      rw [List.mapIdx_cons, List.map_cons, List.sum_cons, List.map_cons, List.sum_cons, smul_add]
      congr 1
      exact ih fun i => j (i + 1)
  unfold legs sideCharge
  rw [List.map_append, List.sum_append, key (-1) _ (fun i => i), key 1 _ (fun i => i + p0.length)]
  simp only [neg_smul, one_smul]
  abel

/-- **C98 (reactions).** If a declared reaction conserves a charge, so does every reaction generated from it. -/
theorem C98_reactions (A : LibAttr S) (q : S → G) (hq : ∀ s, A.majorana s = true → q s = 0) (d : Decl S)
    (h0 : d.left.length = d.antiL.length) (h1 : d.right.length = d.antiR.length) (rs : List (List (Item S)))
    (hrs : reactionsMap A.toAttr d.left d.right d.antiL d.antiR = .ok rs) (r : List (Item S)) (hr : r ∈ rs) :
    (r.map (legCharge q)).sum = 0 ↔ Conserves q d := by
  rw [C41_charge_balance A.toAttr q hq d.left d.right d.antiL d.antiR h0 h1 rs hrs r hr, legs_charge, sub_eq_zero]
  exact eq_comm

theorem mem_combRepl {α : Type*} (l : List α) (x : α × α) (h : x ∈ combRepl l) : x.1 ∈ l ∧ x.2 ∈ l := by
  induction l with
  | nil => simp [combRepl] at h
  | cons y l ih =>
    simp only [combRepl, List.mem_append, List.mem_map] at h
    rcases h with ⟨z, hz, rfl⟩ | h
    · exact ⟨List.mem_cons_self .., hz⟩
    · exact ⟨List.mem_cons_of_mem _ (ih h).1, List.mem_cons_of_mem _ (ih h).2⟩

variable (A : LibAttr S) (c : LibConst)

/-- **C98 (neutrinos).** The interactions of neutrinos among each other and with leptons conserve every charge. -/
theorem C98_neutrino (leptons neutrinos : List S) (q : S → G) :
    ∀ d ∈ neutrinoInteractions A c leptons neutrinos, Conserves q d := by
  intro d hd
  simp only [neutrinoInteractions, List.mem_append, List.mem_map, List.mem_flatMap] at hd
  rcases hd with ⟨x, -, rfl⟩ | ⟨l, -, n, -, rfl⟩
  · simp [Conserves, sideCharge, neutrinoScattering]
  · simp [Conserves, sideCharge, neutrinosToLeptons]

/-- **C98 (charged current).** The charged-current reactions of leptons conserve every charge conserved at the
vertices: in particular electric charge and each lepton flavour separately. -/
theorem C98_lepton (leptons neutrinos : List S) (q : S → G) (w : G) (hv : VertexLepton A q w leptons neutrinos) :
    ∀ d ∈ leptonInteractions A c leptons neutrinos, Conserves q d := by
  intro d hd
  simp only [leptonInteractions, List.mem_flatMap] at hd
  obtain ⟨l, hl, n, hn, hd⟩ := hd
  split_ifs at hd with h1
  · simp only [List.mem_flatMap, List.mem_filter] at hd
    obtain ⟨l', ⟨hl', -⟩, n', ⟨hn', -⟩, hd⟩ := hd
    split_ifs at hd with h2
    · rw [List.mem_singleton] at hd
      subst hd
      simp [Conserves, sideCharge, leptonsCC, hv l hl n hn h2.1, hv l' hl' n' hn' h2.2]
    · simp at hd
  · simp at hd

theorem charged_pion_conserves (q : S → G) (w : G) (meson lepton neutrino : S) (h1 : q meson = -w)
    (h2 : q neutrino = q lepton + w) : ∀ d ∈ decayChargedPion A c meson lepton neutrino, Conserves q d := by
  intro d hd
  simp only [decayChargedPion, List.map_cons, List.map_nil, List.mem_cons, List.not_mem_nil, or_false] at hd
  rcases hd with rfl | rfl <;> simp [Conserves, sideCharge, h1, h2]

variable (ME : String → ℝ) (m : Chain S)

/-- The four declarations of the meson chains whose second particle carries the wrong flag: `K⁻ π⁺ → π⁻ π⁻`,
`K_L π⁺ → e⁻ ν̄`, `K_L π⁺ → μ⁻ ν̄`, `ω π⁺ → π⁻ π⁰`. -/
def WrongFlag (d : Decl S) : Prop :=
  (d.left = [m.kaon, m.pi] ∧ d.right = [m.pi, m.pi] ∧ d.antiL = [false, true] ∧ d.antiR = [false, false]) ∨
  (d.left = [m.kaonL, m.pi] ∧ d.right = [m.electron, m.nuE] ∧ d.antiL = [false, true] ∧ d.antiR = [false, true]) ∨
  (d.left = [m.kaonL, m.pi] ∧ d.right = [m.muonP, m.nuMu] ∧ d.antiL = [false, true] ∧ d.antiR = [false, true]) ∨
  (d.left = [m.omega, m.pi] ∧ d.right = [m.pi, m.pi0] ∧ d.antiL = [false, true] ∧ d.antiR = [false, false])

theorem mem_ite_left {α : Type*} {p : Prop} [Decidable p] {l l' : List α} {P : α → Prop}
    (h : ∀ d ∈ l', d ∈ l ∨ P d) : ∀ d ∈ (if p then l else l'), d ∈ l ∨ P d := by
  split_ifs
  · exact fun d hd => Or.inl hd
  · exact h

/-- A step adds only declarations with the property `P`. -/
def Adds (P : Decl S → Prop) (f : List (Decl S) → List (Decl S)) : Prop := ∀ l, ∀ d ∈ f l, d ∈ l ∨ P d

theorem Adds.unless {P : Decl S → Prop} {f : List (Decl S) → List (Decl S)} (hf : Adds P f) (b : List (Decl S) → Bool) :
    Adds P fun l => if b l = true then l else f l := fun l => mem_ite_left (hf l)

theorem Adds.comp {P : Decl S → Prop} {f g : List (Decl S) → List (Decl S)} (hf : Adds P f) (hg : Adds P g) :
    Adds P fun l => g (f l) := by
  intro l d hd
  rcases hg _ d hd with h | h
  · exact hf l d h
  · exact Or.inr h

theorem Adds.append {P : Decl S → Prop} {f : List (Decl S) → List (Decl S)} (hf : Adds P f) (t : List (Decl S))
    (ht : ∀ d ∈ t, P d) : Adds P fun l => f l ++ t := by
  intro l d hd
  rcases List.mem_append.mp hd with h | h
  · exact hf l d h
  · exact Or.inr (ht d h)

/-- If all the pieces of the chains have a property, so has every declaration of `meson_interactions`. -/
theorem chain_all (P : Decl S → Prop)
    (hl : ∀ d ∈ leptonInteractions A c m.leptons m.neutrinos, P d)
    (hpi : ∀ d ∈ decayChargedPion A c m.pi m.muonP m.nuMu, P d)
    (hpi0 : ∀ d ∈ decayNeutralPion A c m.pi0 m.photon, P d)
    (h4 : ∀ x ∈ [(m.kaon, m.pi0, m.electron, m.nuE, false, true, "KaonMinPi0ElecNue"),
      (m.kaonL, m.pi0, m.pi0, m.pi0, false, false, "KaonLThreePi0"), (m.kaonL, m.pi0, m.pi, m.pi, false, true, "KaonLPiPlusPiMinPi0"),
      (m.eta, m.pi0, m.pi0, m.pi0, false, false, "EtaThreePi0"), (m.eta, m.pi0, m.pi, m.pi, false, true, "EtaPiPlusPiMinPi0"),
      (m.eta, m.photon, m.pi, m.pi, false, true, "EtaPiPlusPiMinGamma"), (m.etaP, m.eta, m.pi, m.pi, false, true, "EtaPrimePiPlusPiMinEta"),
      (m.etaP, m.pi0, m.pi0, m.eta, false, false, "EtaPrimeTwoPi0Eta")],
      P ⟨[x.1, x.2.1], [x.2.2.1, x.2.2.2.1], [false, false], [x.2.2.2.2.1, x.2.2.2.2.2.1], .four [weakConst (ME x.2.2.2.2.2.2)]⟩)
    (hw : ∀ x ∈ [(m.kaon, m.pi, m.pi, false, "KaonMinPiPlusTwoPiMin"), (m.kaonL, m.electron, m.nuE, true, "KaonLPiPlusElecNue"),
      (m.kaonL, m.muonP, m.nuMu, true, "KaonLPiPlusMuonNumu"), (m.omega, m.pi, m.pi0, false, "OmegaPiPlusPiMinPi0")],
      P ⟨[x.1, m.pi], [x.2.1, x.2.2.1], [false, true], [false, x.2.2.2.1], .four [weakConst (ME x.2.2.2.2)]⟩)
    (h3 : ∀ x ∈ [(m.kaon, m.muonP, m.nuMu, false, true, "KaonMinMuonNumu"), (m.kaon, m.pi, m.pi0, false, false, "KaonMinPiMinPi0"),
      (m.kaonS, m.pi0, m.pi0, false, false, "KaonSTwoPi0"), (m.kaonS, m.pi, m.pi, false, true, "KaonSPiPlusPiMin"),
      (m.eta, m.photon, m.photon, false, false, "EtaTwoGamma"), (m.rho0, m.pi, m.pi, true, false, "Rho0PiPlusPiMin"),
      (m.rho, m.pi, m.pi0, false, false, "RhoPlusPiPlusPi0"), (m.omega, m.pi0, m.photon, false, false, "OmegaPi0Gamma"),
      (m.etaP, m.rho0, m.photon, false, false, "EtaPrimeRho0Gamma"), (m.phi, m.kaon, m.kaon, true, false, "PhiKPlusKMin"),
      (m.phi, m.kaonL, m.kaonS, false, false, "PhiK0LK0S"), (m.phi, m.rho0, m.pi0, false, false, "PhiRho0Pi0")],
      P ⟨[x.1], [x.2.1, x.2.2.1], [false], [x.2.2.2.1, x.2.2.2.2.1], .three (ME x.2.2.2.2.2)⟩)
    (primary : List Meson) : ∀ d ∈ mesonInteractions A c ME m primary, P d := by
  simp only [List.forall_mem_cons] at h4 hw h3
  obtain ⟨f1, f2, f3, f4, f5, f6, f7, f8, -⟩ := h4
  obtain ⟨w1, w2, w3, w4, -⟩ := hw
  obtain ⟨t1, t2, t3, t4, t5, t6, t7, t8, t9, t10, t11, t12, -⟩ := h3
  have id' : Adds P (fun l : List (Decl S) => l) := fun l d hd => Or.inl hd
  have a0 : Adds P (pi0Decay A c m) := id'.append _ hpi0
  have a1 : Adds P (piDecay A c m) := by
    intro l d hd
    unfold piDecay at hd
    dsimp only at hd
    rcases List.mem_append.mp hd with h | h
    · split_ifs at h with hc
      · exact Or.inl h
      · rcases List.mem_append.mp h with h | h
        · exact Or.inl h
        · exact Or.inr (hl d h)
    · exact Or.inr (hpi d h)
  have b0 : Adds P (withPi0 A c m) := a0.unless fun l => alreadyThere A l m.pi0
  have b1 : Adds P (withPi A c m) := a1.unless fun l => alreadyThere A l m.pi
  have b : Adds P fun l => withPi0 A c m (withPi A c m l) := b1.comp b0
  have k : Adds P (kaonDecay A c ME m) := by
    unfold kaonDecay fourMeson threeMeson
    refine (((b.append _ ?_).append _ ?_).append _ ?_).append _ ?_ <;> simpa
  have kL : Adds P (kaonLDecay A c ME m) := by
    unfold kaonLDecay fourMeson
    refine (((b.append _ ?_).append _ ?_).append _ ?_).append _ ?_ <;> simpa
  have kS : Adds P (kaonSDecay A c ME m) := by
    unfold kaonSDecay threeMeson
    refine (b.append _ ?_).append _ ?_ <;> simpa
  have e : Adds P (etaDecay A c ME m) := by
    unfold etaDecay fourMeson threeMeson
    refine (((b.append _ ?_).append _ ?_).append _ ?_).append _ ?_ <;> simpa
  have r0 : Adds P (rho0Decay A c ME m) := by
    unfold rho0Decay threeMeson
    refine b1.append _ ?_; simpa
  have r : Adds P (rhoDecay A c ME m) := by
    unfold rhoDecay threeMeson
    refine b.append _ ?_; simpa
  have o : Adds P (omegaDecay A c ME m) := by
    unfold omegaDecay fourMeson threeMeson
    refine (b.append _ ?_).append _ ?_ <;> simpa
  have r0' := r0.unless fun l => alreadyThere A l m.rho0
  have e' := e.unless fun l => alreadyThere A l m.eta
  have ep : Adds P (etaPDecay A c ME m) := by
    unfold etaPDecay fourMeson threeMeson
    refine ((((r0'.comp e').comp b).append _ ?_).append _ ?_).append _ ?_ <;> simpa
  have k' := k.unless fun l => alreadyThere A l m.kaon
  have kL' := kL.unless fun l => alreadyThere A l m.kaonL
  have kS' := kS.unless fun l => alreadyThere A l m.kaonS
  have ph : Adds P (phiDecay A c ME m) := by
    unfold phiDecay threeMeson
    refine ((((((r0'.comp k').comp kL').comp kS').comp b0).append _ ?_).append _ ?_).append _ ?_ <;> simpa
  have all : ∀ x, Adds P (mesonDecay A c ME m x) := by
    intro x; cases x <;> assumption
  have run : ∀ (primary : List Meson) (l : List (Decl S)), (∀ d ∈ l, P d) →
      ∀ d ∈ primary.foldl (fun l x => mesonDecay A c ME m x l) l, P d := by
    intro primary
    induction primary with
    | nil => exact fun l h => h
    | cons x primary ih =>
      intro l hl
      refine ih _ fun d hd => ?_
      rcases all x l d hd with h | h
      · exact hl d h
      · exact h
  exact run primary [] (by simp)

/-- **C98 (meson chains).** Whatever the primary mesons, every declaration of `meson_interactions` conserves the charges
of the vertices, except the four with a wrong flag. -/
theorem C98_mesons_partial (q : S → G) (w : G) (hv : VertexChain A q w m) (primary : List Meson) :
    ∀ d ∈ mesonInteractions A c ME m primary, Conserves q d ∨ WrongFlag m d := by
  obtain ⟨g0, g1, g2, g3, g4, g5, g6, g7, g8, g9, g10, g11, g12, g13, g14⟩ := hv
  refine chain_all A c ME m _ ?_ ?_ ?_ ?_ ?_ ?_ primary
  · exact fun d hd => Or.inl (C98_lepton A c _ _ q w g14 d hd)
  · exact fun d hd => Or.inl (charged_pion_conserves A c q w _ _ _ g9 g13 d hd)
  · intro d hd
    simp only [decayNeutralPion, List.mem_singleton] at hd
    subst hd
    left; simp [Conserves, sideCharge, *]
  · simp only [List.forall_mem_cons]
    refine ⟨?_, ?_, ?_, ?_, ?_, ?_, ?_, ?_, by simp⟩ <;> (left; simp [Conserves, sideCharge, *])
  · simp only [List.forall_mem_cons]
    refine ⟨?_, ?_, ?_, ?_, by simp⟩ <;> (right; simp [WrongFlag])
  · simp only [List.forall_mem_cons]
    refine ⟨?_, ?_, ?_, ?_, ?_, ?_, ?_, ?_, ?_, ?_, ?_, ?_, by simp⟩ <;> (left; simp [Conserves, sideCharge, *])

/-- **C98 (failure).** The four declarations with a wrong flag conserve such a charge only if `2 w = 0`; electric charge is
violated by two units. -/
theorem C98_wrong_flag (q : S → G) (w : G) (hv : VertexChain A q w m) (d : Decl S) (h : WrongFlag m d) :
    Conserves q d ↔ w + w = 0 := by
  obtain ⟨g0, g1, g2, g3, g4, g5, g6, g7, g8, g9, g10, g11, g12, g13, g14⟩ := hv
  have key : ∀ x y : G, x - y = w + w ∨ x - y = -(w + w) → (x = y ↔ w + w = 0) := by
    intro x y h
    rw [← sub_eq_zero]
    rcases h with h | h <;> rw [h]
    exact neg_eq_zero
  rcases h with ⟨h1, h2, h3, h4⟩ | ⟨h1, h2, h3, h4⟩ | ⟨h1, h2, h3, h4⟩ | ⟨h1, h2, h3, h4⟩ <;>
    (unfold Conserves sideCharge
     rw [h1, h2, h3, h4]
     apply key
     simp only [List.zip_cons_cons, List.zip_nil_right, List.map_cons, List.map_nil, List.sum_cons, List.sum_nil, *])
  · left; simp; try abel
  · left; simp; try abel
  · left; simp; try abel
  · left; simp; try abel

/-- **C98 (failure, reactions).** Every reaction generated from such a declaration has charge `-2 w`: charge two of the
initial state is lost or gained, for instance `K⁻ → π⁻ π⁻ π⁻` instead of `K⁻ → π⁻ π⁻ π⁺`. -/
theorem C98_wrong_flag_reactions (q : S → G) (hq : ∀ s, A.majorana s = true → q s = 0) (w : G) (hv : VertexChain A q w m)
    (d : Decl S) (h : WrongFlag m d) (rs : List (List (Item S)))
    (hrs : reactionsMap A.toAttr d.left d.right d.antiL d.antiR = .ok rs) (r : List (Item S)) (hr : r ∈ rs) :
    (r.map (legCharge q)).sum = -(w + w) := by
  have hlen : d.left.length = d.antiL.length ∧ d.right.length = d.antiR.length := by
    rcases h with ⟨h1, h2, h3, h4⟩ | ⟨h1, h2, h3, h4⟩ | ⟨h1, h2, h3, h4⟩ | ⟨h1, h2, h3, h4⟩ <;> simp [*]
  rw [C41_charge_balance A.toAttr q hq _ _ _ _ hlen.1 hlen.2 rs hrs r hr, legs_charge]
  obtain ⟨g0, g1, g2, g3, g4, g5, g6, g7, g8, g9, g10, g11, g12, g13, g14⟩ := hv
  rcases h with ⟨h1, h2, h3, h4⟩ | ⟨h1, h2, h3, h4⟩ | ⟨h1, h2, h3, h4⟩ | ⟨h1, h2, h3, h4⟩ <;>
    (unfold sideCharge
     rw [h1, h2, h3, h4]
     simp [*]
     try abel)

/-- A step keeps what is there. -/
def Grows (f : List (Decl S) → List (Decl S)) : Prop := ∀ l, ∃ t, f l = l ++ t

theorem Grows.unless {f : List (Decl S) → List (Decl S)} (hf : Grows f) (b : List (Decl S) → Bool) :
    Grows fun l => if b l = true then l else f l := by
  intro l
  dsimp only
  split_ifs
  · exact ⟨[], (List.append_nil l).symm⟩
  · exact hf l

theorem Grows.comp {f g : List (Decl S) → List (Decl S)} (hf : Grows f) (hg : Grows g) : Grows fun l => g (f l) := by
  intro l
  obtain ⟨t, ht⟩ := hf l
  obtain ⟨u, hu⟩ := hg (f l)
  exact ⟨t ++ u, by show g (f l) = _; rw [hu, ht, List.append_assoc]⟩

theorem Grows.append {f : List (Decl S) → List (Decl S)} (hf : Grows f) (t : List (Decl S)) : Grows fun l => f l ++ t := by
  intro l
  obtain ⟨u, hu⟩ := hf l
  exact ⟨u ++ t, by show f l ++ t = _; rw [hu, List.append_assoc]⟩

theorem grows_id : Grows (fun l : List (Decl S) => l) := fun l => ⟨[], (List.append_nil l).symm⟩

theorem grows_pi : Grows (piDecay A c m) := by
  intro l
  unfold piDecay
  dsimp only
  split_ifs
  · exact ⟨_, rfl⟩
  · exact ⟨_, List.append_assoc _ _ _⟩

theorem grows_meson (x : Meson) : Grows (mesonDecay A c ME m x) := by
  have a0 : Grows (pi0Decay A c m) := grows_id.append _
  have a1 := grows_pi A c m
  have b0 : Grows (withPi0 A c m) := a0.unless fun l => alreadyThere A l m.pi0
  have b1 : Grows (withPi A c m) := a1.unless fun l => alreadyThere A l m.pi
  have b : Grows fun l => withPi0 A c m (withPi A c m l) := b1.comp b0
  have k : Grows (kaonDecay A c ME m) := (((b.append _).append _).append _).append _
  have kL : Grows (kaonLDecay A c ME m) := (((b.append _).append _).append _).append _
  have kS : Grows (kaonSDecay A c ME m) := (b.append _).append _
  have e : Grows (etaDecay A c ME m) := (((b.append _).append _).append _).append _
  have r0 : Grows (rho0Decay A c ME m) := b1.append _
  have r : Grows (rhoDecay A c ME m) := b.append _
  have o : Grows (omegaDecay A c ME m) := (b.append _).append _
  have r0' := r0.unless fun l => alreadyThere A l m.rho0
  have e' := e.unless fun l => alreadyThere A l m.eta
  have ep : Grows (etaPDecay A c ME m) := ((((r0'.comp e').comp b).append _).append _).append _
  have k' := k.unless fun l => alreadyThere A l m.kaon
  have kL' := kL.unless fun l => alreadyThere A l m.kaonL
  have kS' := kS.unless fun l => alreadyThere A l m.kaonS
  have ph : Grows (phiDecay A c ME m) := ((((((r0'.comp k').comp kL').comp kS').comp b0).append _).append _).append _
  cases x <;> assumption

theorem foldl_keeps (primary : List Meson) (l : List (Decl S)) (d : Decl S) (hd : d ∈ l) :
    d ∈ primary.foldl (fun l x => mesonDecay A c ME m x l) l := by
  induction primary generalizing l with
  | nil => exact hd
  | cons x primary ih =>
    refine ih _ ?_
    obtain ⟨t, ht⟩ := grows_meson A c ME m x l
    change d ∈ mesonDecay A c ME m x l
    rw [ht]
    exact List.mem_append_left _ hd

/-- What the step for a primary meson always adds is in the result. -/
theorem meson_adds (primary : List Meson) (x : Meson) (hx : x ∈ primary) (d : Decl S)
    (h : ∀ l, d ∈ mesonDecay A c ME m x l) : d ∈ mesonInteractions A c ME m primary := by
  unfold mesonInteractions
  obtain ⟨s, t, rfl⟩ := List.append_of_mem hx
  rw [List.foldl_append, List.foldl_cons]
  exact foldl_keeps A c ME m t _ d (h _)

/-- **C98 (failure, reachable).** Declaring a charged kaon, a long-lived kaon or an omega declares such a reaction. -/
theorem C98_wrong_flag_reached (primary : List Meson)
    (h : .kaon ∈ primary ∨ .kaonL ∈ primary ∨ .omega ∈ primary) :
    ∃ d ∈ mesonInteractions A c ME m primary, WrongFlag m d := by
  rcases h with h | h | h
  · refine ⟨_, meson_adds A c ME m primary _ h ⟨[m.kaon, m.pi], [m.pi, m.pi], [false, true], [false, false],
      .four [weakConst (ME "KaonMinPiPlusTwoPiMin")]⟩ fun l => ?_, by simp [WrongFlag]⟩
    simp [mesonDecay, kaonDecay, fourMeson]
  · refine ⟨_, meson_adds A c ME m primary _ h ⟨[m.kaonL, m.pi], [m.electron, m.nuE], [false, true], [false, true],
      .four [weakConst (ME "KaonLPiPlusElecNue")]⟩ fun l => ?_, by simp [WrongFlag]⟩
    simp [mesonDecay, kaonLDecay, fourMeson]
  · refine ⟨_, meson_adds A c ME m primary _ h ⟨[m.omega, m.pi], [m.pi, m.pi0], [false, true], [false, false],
      .four [weakConst (ME "OmegaPiPlusPiMinPi0")]⟩ fun l => ?_, by simp [WrongFlag]⟩
    simp [mesonDecay, omegaDecay, fourMeson]

/-- **C98 (baryons).** Neutron decay conserves a charge iff the declared attributes balance. -/
theorem C98_baryons (q : S → G) (n p nu e : S) :
    Conserves q (baryonsInteraction c n p nu e) ↔ q n = q p + q e - q nu := by
  simp only [Conserves, sideCharge, baryonsInteraction, List.zip_cons_cons, List.zip_nil_right, List.map_cons, List.map_nil,
    List.sum_cons, List.sum_nil, if_true, if_false, Bool.false_eq_true, add_zero]
  rw [← sub_eq_add_neg, add_sub_assoc]

/-! ## Heavy neutral lepton -/

/-- The heavy neutrino carries the charge of every neutrino it mixes with, and the vertices of charged leptons, quarks and
mesons change the charge by `w`. -/
structure VertexSterile (A : LibAttr S) (q : S → G) (w : G) (thetas : String → ℝ) (N : S)
    (neutrinos leptons quarks mesons : List S) : Prop where
  neutrino : ∀ a ∈ neutrinos, thetas (A.flavour a) ≠ 0 → q N = q a
  lepton : ∀ l ∈ leptons, thetas (A.flavour l) ≠ 0 → q N = q l + w
  pair : VertexLepton A q w leptons neutrinos
  quark : ∀ u ∈ quarks, ∀ d ∈ quarks, A.Q u = 2 / 3 → A.Q d = -1 / 3 → q u = q d + w
  neutral : ∀ x ∈ mesons, A.Q x = 0 → q x = 0
  charged : ∀ x ∈ mesons, A.Q x = -1 → q x = -w

variable (q : S → G) (w : G) (thetas : String → ℝ) (N : S) (neutrinos lepts quarks mesons : List S)

/-- **C98 (heavy neutrino and leptons).** -/
theorem C98_sterile_leptons (hv : VertexSterile A q w thetas N neutrinos lepts quarks mesons) :
    ∀ d ∈ sterileLeptons A c thetas N neutrinos lepts, Conserves q d := by
  intro d hd
  unfold sterileLeptons at hd
  rcases List.mem_append.mp hd with hd | hd
  · obtain ⟨a, ha, hd⟩ := List.mem_flatMap.mp hd
    obtain ⟨b, -, hd⟩ := List.mem_flatMap.mp hd
    split_ifs at hd with h
    · have e := hv.neutrino a ha h
      simp only [sterileScattering, List.mem_cons, List.not_mem_nil, or_false] at hd
      rcases hd with rfl | rfl <;> simp [Conserves, sideCharge, e]
    · simp at hd
  · obtain ⟨l, hl, hd⟩ := List.mem_flatMap.mp hd
    obtain ⟨a, ha, hd⟩ := List.mem_flatMap.mp hd
    rcases List.mem_append.mp hd with hd | hd
    · split_ifs at hd with h
      · have e := hv.neutrino a ha h
        simp only [sterileNC, List.map_cons, List.map_nil, List.mem_cons, List.not_mem_nil, or_false] at hd
        rcases hd with rfl | rfl <;> simp [Conserves, sideCharge, e]
      · simp at hd
    · split_ifs at hd with h
      · obtain ⟨l', hl', hd⟩ := List.mem_flatMap.mp hd
        split_ifs at hd with h'
        · have e1 := hv.lepton l hl h'.1
          have e2 := hv.pair l' (List.mem_filter.mp hl').1 a ha h'.2
          simp only [sterileCC, List.map_cons, List.map_nil, List.mem_cons, List.not_mem_nil, or_false] at hd
          rcases hd with rfl | rfl <;> simp [Conserves, sideCharge, e1, e2] <;> abel
        · simp at hd
      · simp at hd

theorem mapM_option_mem {α β : Type*} (f : α → Option β) (l : List α) (ys : List β) (h : l.mapM f = some ys) :
    ∀ y ∈ ys, ∃ x ∈ l, f x = some y := by
  induction l generalizing ys with
  | nil => simp_all
  | cons x l ih =>
    rw [List.mapM_cons] at h
    simp only [Option.bind_eq_bind, Option.bind_eq_some_iff] at h
    obtain ⟨y, hy, ys', hys, he⟩ := h
    obtain rfl := Option.some.inj he
    intro z hz
    rcases List.mem_cons.mp hz with rfl | hz
    · exact ⟨x, List.mem_cons_self .., hy⟩
    · obtain ⟨x', hx', e⟩ := ih ys' hys z hz
      exact ⟨x', List.mem_cons_of_mem _ hx', e⟩

/-- **C98 (heavy neutrino and quarks).** -/
theorem C98_sterile_quarks (hv : VertexSterile A q w thetas N neutrinos lepts quarks mesons) (ds : List (Decl S))
    (h : sterileQuarks A c thetas N neutrinos lepts quarks = some ds) : ∀ d ∈ ds, Conserves q d := by
  unfold sterileQuarks at h
  simp only [Option.bind_eq_bind, Option.bind_eq_some_iff] at h
  obtain ⟨nc, hnc, he⟩ := h
  obtain rfl := Option.some.inj he
  intro d hd
  rcases List.mem_append.mp hd with hd | hd
  · obtain ⟨x, hx, e⟩ := mapM_option_mem _ _ nc hnc d hd
    obtain ⟨k, -, hx⟩ := List.mem_flatMap.mp hx
    obtain ⟨a, ha, rfl⟩ := List.mem_map.mp hx
    obtain ⟨ha, hθ⟩ := List.mem_filter.mp ha
    have e1 := hv.neutrino a ha (by simpa using hθ)
    obtain ⟨g, -, rfl⟩ := Option.map_eq_some_iff.mp e
    simp [Conserves, sideCharge, e1]
  · obtain ⟨x, hx, hd⟩ := List.mem_flatMap.mp hd
    obtain ⟨l, hl, rfl⟩ := List.mem_map.mp hd
    obtain ⟨hl, hθ⟩ := List.mem_filter.mp hl
    have e1 := hv.lepton l hl (by simpa using hθ)
    obtain ⟨u, hu, hx⟩ := List.mem_flatMap.mp hx
    obtain ⟨k, hk, rfl⟩ := List.mem_map.mp hx
    obtain ⟨hu, hqu⟩ := List.mem_filter.mp hu
    obtain ⟨hk, hqk⟩ := List.mem_filter.mp hk
    have e2 := hv.quark u hu k hk (by simpa using hqu) (by simpa using hqk)
    simp [Conserves, sideCharge, sterileQuarkCC, e1, e2]
    try abel

theorem foldlM_option_all {α β : Type*} (f : α → Option (List β)) (P : β → Prop) (l : List α)
    (hf : ∀ x ∈ l, ∀ t, f x = some t → ∀ d ∈ t, P d) (acc ds : List β) (ha : ∀ d ∈ acc, P d)
    (h : l.foldlM (fun acc y => (f y).map (acc ++ ·)) acc = some ds) : ∀ d ∈ ds, P d := by
  induction l generalizing acc with
  | nil =>
    obtain rfl : acc = ds := by simpa using h
    exact ha
  | cons x l ih =>
    rw [List.foldlM_cons] at h
    simp only [Option.bind_eq_bind, Option.bind_eq_some_iff] at h
    obtain ⟨acc', h1, h2⟩ := h
    obtain ⟨t, ht, rfl⟩ := Option.map_eq_some_iff.mp h1
    refine ih (fun y hy => hf y (List.mem_cons_of_mem _ hy)) _ ?_ h2
    intro d hd
    rcases List.mem_append.mp hd with hd | hd
    · exact ha d hd
    · exact hf x (List.mem_cons_self ..) t ht d hd

/-- **C98 (heavy neutrino and mesons).** -/
theorem C98_sterile_mesons (hv : VertexSterile A q w thetas N neutrinos lepts quarks mesons) (last : S) :
    (∀ ds, sterileNeutralMesons A c thetas N neutrinos mesons = some ds → ∀ d ∈ ds, Conserves q d) ∧
      ∀ d ∈ sterileChargedMesons A c thetas N last lepts mesons, Conserves q d := by
  constructor
  · intro ds h
    unfold sterileNeutralMesons at h
    refine foldlM_option_all _ _ _ ?_ [] ds (by simp) h
    intro y hy t ht d hd
    obtain ⟨a, ha, hy⟩ := List.mem_flatMap.mp hy
    obtain ⟨x, hx, rfl⟩ := List.mem_map.mp hy
    obtain ⟨ha, hθ⟩ := List.mem_filter.mp ha
    obtain ⟨hx, hx0⟩ := List.mem_filter.mp hx
    have e1 := hv.neutrino a ha (by simpa using hθ)
    have e2 := hv.neutral x hx (by simpa using hx0)
    dsimp only at ht
    split_ifs at ht with c1 c2
    · obtain rfl := Option.some.inj ht
      simp only [neutralScalar, List.map_cons, List.map_nil, List.mem_cons, List.not_mem_nil, or_false] at hd
      rcases hd with rfl | rfl <;> simp [Conserves, sideCharge, e1, e2]
    · obtain ⟨κ, -, rfl⟩ := Option.map_eq_some_iff.mp ht
      simp only [List.map_cons, List.map_nil, List.mem_cons, List.not_mem_nil, or_false] at hd
      rcases hd with rfl | rfl <;> simp [Conserves, sideCharge, e1, e2]
    · obtain rfl := Option.some.inj ht
      simp at hd
  · intro d hd
    unfold sterileChargedMesons at hd
    obtain ⟨l, hl, hd⟩ := List.mem_flatMap.mp hd
    obtain ⟨x, hx, hd⟩ := List.mem_flatMap.mp hd
    obtain ⟨hl, hθ⟩ := List.mem_filter.mp hl
    obtain ⟨hx, hx1⟩ := List.mem_filter.mp hx
    have e1 := hv.lepton l hl (by simpa using hθ)
    have e2 := hv.charged x hx (by simpa using hx1)
    split_ifs at hd with c1 c2
    · simp only [chargedScalar, List.map_cons, List.map_nil, List.mem_cons, List.not_mem_nil, or_false] at hd
      rcases hd with rfl | rfl <;> (simp [Conserves, sideCharge, e1, e2]; try abel)
    · simp only [chargedVector, List.map_cons, List.map_nil, List.mem_cons, List.not_mem_nil, or_false] at hd
      rcases hd with rfl | rfl <;> simp [Conserves, sideCharge, e1, e2] <;> abel
    · simp at hd

end

/-! ## The shipped templates -/

/-- Electric charge satisfies the vertex relations with `w = 1`, for any sublists of the templates of leptons. -/
theorem tmpl_electric (MeV : ℝ) (mN : ℚ) (leptons neutrinos : List Tmpl) (hl : ∀ x ∈ leptons, x ∈ [Tmpl.electron, .muon, .tau])
    (hn : ∀ x ∈ neutrinos, x ∈ [Tmpl.nuE, .nuMu, .nuTau]) (muon : ℕ) :
    VertexChain (tmplAttr MeV mN) Tmpl.Q 1 (tmplChain leptons neutrinos muon) := by
  refine ⟨rfl, rfl, rfl, rfl, rfl, rfl, rfl, rfl, rfl, rfl, rfl, rfl, ?_, ?_, ?_⟩
  · norm_num [tmplChain, Tmpl.Q]
  · norm_num [tmplChain, Tmpl.Q]
  · intro l h1 n h2 _
    have h1 := hl l h1
    have h2 := hn n h2
    fin_cases h1 <;> fin_cases h2 <;> norm_num [Tmpl.Q]

/-- **C98 (templates, failure).** With the shipped templates, declaring charged kaons declares a reaction all of whose
integrals change the electric charge by two units. -/
theorem C98_templates_refuted (MeV : ℝ) (mN : ℚ) (c : LibConst) (ME : String → ℝ) (leptons neutrinos : List Tmpl)
    (hl : ∀ x ∈ leptons, x ∈ [Tmpl.electron, .muon, .tau]) (hn : ∀ x ∈ neutrinos, x ∈ [Tmpl.nuE, .nuMu, .nuTau])
    (muon : ℕ) (primary : List Meson) (h : .kaon ∈ primary) :
    ∃ d ∈ mesonInteractions (tmplAttr MeV mN) c ME (tmplChain leptons neutrinos muon) primary, ∀ rs,
      reactionsMap (tmplAttr MeV mN).toAttr d.left d.right d.antiL d.antiR = .ok rs → ∀ r ∈ rs,
        (r.map (legCharge Tmpl.Q)).sum = -2 := by
  obtain ⟨d, hd, hw⟩ := C98_wrong_flag_reached (tmplAttr MeV mN) c ME (tmplChain leptons neutrinos muon) primary (Or.inl h)
  refine ⟨d, hd, fun rs hrs r hr => ?_⟩
  rw [C98_wrong_flag_reactions (tmplAttr MeV mN) _ Tmpl.Q ?_ 1 (tmpl_electric MeV mN leptons neutrinos hl hn muon) d hw rs hrs r hr]
  · norm_num
  · intro s hs
    cases s <;> first | rfl | cases hs

/-- **C98 (templates, baryons).** With the shipped templates neutron decay does not conserve electric charge: the proton is
given the charge `-1`. -/
theorem C98_baryons_refuted (c : LibConst) : ¬ Conserves Tmpl.Q (baryonsInteraction c .neutron .proton .nuE .electron) := by
  rw [C98_baryons]
  norm_num [Tmpl.Q]

/-- Electric charge and a heavy neutrino mixed with electron and muon neutrinos; all leptons, quarks and mesons. -/
example (MeV : ℝ) (mN : ℚ) : VertexSterile (tmplAttr MeV mN) Tmpl.Q 1 (fun f => if f = "tau" then 0 else 1) .sterile
    [.nuE, .nuMu, .nuTau] [.electron, .muon, .tau] [.up, .down, .charm, .strange, .top, .bottom]
    [.pi0, .pi, .kaon, .eta, .rho, .rho0, .omega, .etaP, .phi] := by
  refine ⟨?_, ?_, ?_, ?_, ?_, ?_⟩
  · intro a ha _; fin_cases ha <;> rfl
  · intro l hl _; fin_cases hl <;> norm_num [Tmpl.Q]
  · intro l h1 n h2 _; fin_cases h1 <;> fin_cases h2 <;> norm_num [Tmpl.Q]
  · intro u h1 d h2 h3 h4
    fin_cases h1 <;> fin_cases h2 <;>
      first | (exfalso; norm_num [Tmpl.Q, tmplAttr] at h3; done) | (exfalso; norm_num [Tmpl.Q, tmplAttr] at h4; done) |
        norm_num [Tmpl.Q]
  · intro x h1 h2; exact h2
  · intro x h1 h2; exact h2

/-- Electron number: `w = 0`. -/
example (MeV : ℝ) (mN : ℚ) : VertexLepton (tmplAttr MeV mN)
    (fun x : Tmpl => if x = .electron ∨ x = .nuE then (1 : ℤ) else 0) 0 [.electron, .muon, .tau] [.nuE, .nuMu, .nuTau] := by
  intro l h1 n h2 h3
  fin_cases h1 <;> fin_cases h2 <;> first | rfl | (exfalso; revert h3; simp [tmplAttr, Tmpl.flavour])

end PyBBN
