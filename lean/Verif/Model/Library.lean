import Verif.Model.Interactions
import Mathlib.Analysis.SpecialFunctions.Trigonometric.Basic
/-!
# The interaction library

library/SM.py 17–41 and 456–999, library/NuMSM.py 20–39 and 72–440: which interactions are declared, with which legs,
antiparticle flags and couplings.  A declaration holds the arguments of `CrossGeneratingInteraction`; the reactions are
generated from it by `reactionsMap` (Interactions.lean).  Names, `washout_temperature` and `kind` of an interaction are left
out.
-/
namespace PyBBN

/-- Attributes of the particle templates read by the library (SM.py 44–453, NuMSM.py 42–69).  An attribute missing on a
particle would raise `AttributeError`; here every particle has all of them. -/
structure LibAttr (S : Type*) extends Attr S where
  Q : S → ℚ
  flavour : S → String
  /-- `'scalar'` or `'vector'` -/
  mesonType : S → String
  decayConstant : S → ℝ
  family : S → ℕ

/-- Constants of the library: `CONST.G_F`, `CONST.g_R`, `CONST.sin_theta_w_2`, `CONST.alpha` (common/__init__.py 51–67), the
table `CKM` (SM.py 382–392). -/
structure LibConst where
  GF : ℝ
  gR : ℝ
  sin2 : ℝ
  alpha : ℝ
  CKM : ℕ → ℕ → ℝ

/-- Matrix elements of a declaration: four-particle elements, or the constant of one three-particle element. -/
inductive Amp
  | four (Ms : List M4)
  | three (K : ℝ)

/-- The arguments `particles`, `antiparticles` and `Ms` of `CrossGeneratingInteraction`. -/
structure Decl (S : Type*) where
  left : List S
  right : List S
  antiL : List Bool
  antiR : List Bool
  amp : Amp

section
variable {S : Type*} [DecidableEq S] (A : LibAttr S) (c : LibConst)

/-- `WeakM(K1=…, K2=…, order=…)` (SM.py 17–27). -/
noncomputable def weakM (K1 K2 : ℝ) (o : Ord4) : M4 :=
  ⟨K1 * (32 * c.GF ^ 2), K2 * (32 * c.GF ^ 2), 0, normOrder o⟩

/-- `WeakM(K=…)` with the default order (four_particle/__init__.py 33–40): the constant is not multiplied. -/
noncomputable def weakConst (K : ℝ) : M4 := ⟨0, 0, K, ⟨0, 1, 2, 3⟩⟩

/-- `SterileM(theta=…, …)` (NuMSM.py 20–30). -/
noncomputable def sterileM (θ K1 K2 : ℝ) (o : Ord4) : M4 :=
  { weakM c K1 K2 o with K1 := (weakM c K1 K2 o).K1 * θ ^ 2, K2 := (weakM c K1 K2 o).K2 * θ ^ 2 }

/-! ## Standard Model -/

/-- `neutrino_scattering` (SM.py 460–479). -/
noncomputable def neutrinoScattering (a b : S) : Decl S :=
  ⟨[a, b], [a, b], [false, false], [false, false], .four [weakM c 1 0 ⟨0, 1, 2, 3⟩]⟩

/-- `neutrinos_to_leptons` (SM.py 481–510). -/
noncomputable def neutrinosToLeptons (neutrino lepton : S) (gL : ℝ) : Decl S :=
  ⟨[neutrino, neutrino], [lepton, lepton], [false, true], [false, true], .four
    [weakM c (4 * c.gR ^ 2) 0 ⟨0, 3, 1, 2⟩, weakM c (4 * gL ^ 2) 0 ⟨0, 2, 1, 3⟩,
      weakM c 0 (4 * gL * c.gR) ⟨2, 3, 0, 1⟩]⟩

/-- `leptons_CC` (SM.py 512–524). -/
noncomputable def leptonsCC (active1 active2 lepton1 lepton2 : S) : Decl S :=
  ⟨[lepton1, lepton2], [active1, active2], [false, true], [false, true], .four [weakM c 4 0 ⟨0, 3, 1, 2⟩]⟩

/-- `leptons_leptons_NC` (SM.py 526–540). -/
noncomputable def leptonsLeptonsNC (lepton1 lepton2 : S) (gL : ℝ) : Decl S :=
  ⟨[lepton1, lepton2], [lepton1, lepton2], [false, false], [false, false], .four
    [weakM c (4 * (gL ^ 4 + c.gR ^ 4)) 0 ⟨0, 1, 2, 3⟩, weakM c (4 * 2 * gL ^ 2 * c.gR ^ 2) 0 ⟨0, 3, 1, 2⟩,
      weakM c 0 (4 * -gL * c.gR * (gL ^ 2 + c.gR ^ 2)) ⟨0, 2, 1, 3⟩]⟩

/-- `itertools.combinations_with_replacement(l, 2)`. -/
def combRepl {α : Type*} : List α → List (α × α)
  | [] => []
  | x :: l => (x :: l).map (fun y => (x, y)) ++ combRepl l

/-- `g_L` of a lepton and a neutrino (SM.py 555, NuMSM.py 172). -/
noncomputable def couplingL (lepton neutrino : S) : ℝ :=
  if A.flavour lepton = A.flavour neutrino then c.gR + 0.5 else c.gR - 0.5

/-- `neutrino_interactions` (SM.py 542–558). -/
noncomputable def neutrinoInteractions (leptons neutrinos : List S) : List (Decl S) :=
  (combRepl neutrinos).map (fun x => neutrinoScattering c x.1 x.2) ++
  leptons.flatMap fun lepton => neutrinos.map fun neutrino =>
    neutrinosToLeptons c neutrino lepton (couplingL A c lepton neutrino)

/-- `lepton_interactions` (SM.py 560–600). -/
noncomputable def leptonInteractions (leptons neutrinos : List S) : List (Decl S) :=
  leptons.flatMap fun lepton => neutrinos.flatMap fun neutrino =>
    if 1 < leptons.length ∧ 1 < neutrinos.length then
      (leptons.filter (· ≠ lepton)).flatMap fun otherLep =>
        (neutrinos.filter (· ≠ neutrino)).flatMap fun otherNeut =>
          if A.flavour neutrino = A.flavour lepton ∧ A.flavour otherNeut = A.flavour otherLep then
            [leptonsCC c neutrino otherNeut lepton otherLep] else []
    else []

/-- `decay_charged_pion` (SM.py 602–621). -/
noncomputable def decayChargedPion (meson lepton neutrino : S) : List (Decl S) :=
  [([false], [false, true]), ([true], [true, false])].map fun a =>
    ⟨[meson], [lepton, neutrino], a.1, a.2, .three (2 * (c.GF * A.decayConstant meson * c.CKM 1 1) ^ 2 *
      A.mass lepton ^ 4 * ((A.mass meson / A.mass lepton) ^ 2 - 1))⟩

/-- `decay_neutral_pion` (SM.py 623–635). -/
noncomputable def decayNeutralPion (meson photon : S) : List (Decl S) :=
  [⟨[meson], [photon, photon], [false], [false, false],
    .three (c.alpha ^ 2 * A.mass meson ^ 4 / (2 * Real.pi ^ 2 * A.decayConstant meson ^ 2))⟩]

/-- `four_particle_meson_decay` (SM.py 637–647): the second of the four particles is put on the left. -/
noncomputable def fourMeson (p0 p1 p2 p3 : S) (a0 a1 a2 a3 : Bool) (ME : ℝ) : List (Decl S) :=
  [⟨[p0, p1], [p2, p3], [a0, a1], [a2, a3], .four [weakConst ME]⟩]

/-- `three_particle_meson_decay` (SM.py 649–659). -/
def threeMeson (p0 p1 p2 : S) (a0 a1 a2 : Bool) (ME : ℝ) : List (Decl S) :=
  [⟨[p0], [p1, p2], [a0], [a1, a2], .three ME⟩]

/-- `baryons_interaction` (SM.py 989–999). -/
noncomputable def baryonsInteraction (neutron proton neutrino electron : S) : Decl S :=
  ⟨[neutron], [proton, electron, neutrino], [false], [false, false, true],
    .four [weakM c (2 * c.CKM 1 1 ^ 2) 0 ⟨0, 1, 2, 3⟩]⟩

/-! ## Decay chains of mesons -/

/-- The particles bound by the loops at the head of `meson_interactions` (SM.py 667–704), one field per name, and the
photon.  A name that is not in the lists would raise `NameError` when it is used; here all are present.  `leptons`,
`neutrinos` are the arguments; `muon` is `muon_tau[0]` (0 or the number of reactions that produce muons). -/
structure Chain (S : Type*) where
  photon : S
  electron : S
  muonP : S
  nuE : S
  nuMu : S
  pi : S
  pi0 : S
  kaon : S
  kaonL : S
  kaonS : S
  eta : S
  rho0 : S
  rho : S
  omega : S
  etaP : S
  phi : S
  leptons : List S
  neutrinos : List S
  muon : ℕ

/-- The eleven names tested by the final loop (SM.py 953–985). -/
inductive Meson
  | pi0 | pi | kaon | kaonL | kaonS | eta | rho0 | rho | omega | etaP | phi
deriving DecidableEq

/-- The particle bound to a name. -/
def Chain.get (m : Chain S) : Meson → S
  | .pi0 => m.pi0 | .pi => m.pi | .kaon => m.kaon | .kaonL => m.kaonL | .kaonS => m.kaonS | .eta => m.eta
  | .rho0 => m.rho0 | .rho => m.rho | .omega => m.omega | .etaP => m.etaP | .phi => m.phi

/-- `already_there` (SM.py 736–745): some integral of some interaction involves a particle of that name.  The integrals
are those of `reactionsMap` (merging integrals keeps one representative of each group of equal species, C44). -/
noncomputable def alreadyThere (inters : List (Decl S)) (s : S) : Bool :=
  open Classical in
  decide (∃ d ∈ inters, ∃ rs, reactionsMap A.toAttr d.left d.right d.antiL d.antiR = .ok rs ∧
    ∃ r ∈ rs, ∃ x ∈ r, A.name x.specie = A.name s)

variable (ME : String → ℝ) (m : Chain S)

/-- `neutral_pion_decay` (SM.py 747–750). -/
noncomputable def pi0Decay (l : List (Decl S)) : List (Decl S) := l ++ decayNeutralPion A c m.pi0 m.photon

/-- `charged_pion_decay` (SM.py 752–761). -/
noncomputable def piDecay (l : List (Decl S)) : List (Decl S) :=
  let l := if ¬ (m.muon ≠ 0 ∨ alreadyThere A l m.muonP = true) then l ++ leptonInteractions A c m.leptons m.neutrinos else l
  l ++ decayChargedPion A c m.pi m.muonP m.nuMu

/-- `if not already_there(inters, 'Charged pion'): charged_pion_decay(inters)`. -/
noncomputable def withPi (l : List (Decl S)) : List (Decl S) :=
  if alreadyThere A l m.pi = true then l else piDecay A c m l

/-- `if not already_there(inters, 'Neutral pion'): neutral_pion_decay(inters)`. -/
noncomputable def withPi0 (l : List (Decl S)) : List (Decl S) :=
  if alreadyThere A l m.pi0 = true then l else pi0Decay A c m l

/-- `charged_kaon_decay` (SM.py 763–790).  The result of `lepton_interactions` (770–773) is thrown away. -/
noncomputable def kaonDecay (l : List (Decl S)) : List (Decl S) :=
  withPi0 A c m (withPi A c m l) ++
  fourMeson m.kaon m.pi0 m.electron m.nuE false false false true (ME "KaonMinPi0ElecNue") ++
  fourMeson m.kaon m.pi m.pi m.pi false true false false (ME "KaonMinPiPlusTwoPiMin") ++
  threeMeson m.kaon m.muonP m.nuMu false false true (ME "KaonMinMuonNumu") ++
  threeMeson m.kaon m.pi m.pi0 false false false (ME "KaonMinPiMinPi0")

/-- `kaon_long_decay` (SM.py 792–819). -/
noncomputable def kaonLDecay (l : List (Decl S)) : List (Decl S) :=
  withPi0 A c m (withPi A c m l) ++
  fourMeson m.kaonL m.pi m.electron m.nuE false true false true (ME "KaonLPiPlusElecNue") ++
  fourMeson m.kaonL m.pi m.muonP m.nuMu false true false true (ME "KaonLPiPlusMuonNumu") ++
  fourMeson m.kaonL m.pi0 m.pi0 m.pi0 false false false false (ME "KaonLThreePi0") ++
  fourMeson m.kaonL m.pi0 m.pi m.pi false false false true (ME "KaonLPiPlusPiMinPi0")

/-- `kaon_short_decay` (SM.py 821–835). -/
noncomputable def kaonSDecay (l : List (Decl S)) : List (Decl S) :=
  withPi0 A c m (withPi A c m l) ++
  threeMeson m.kaonS m.pi0 m.pi0 false false false (ME "KaonSTwoPi0") ++
  threeMeson m.kaonS m.pi m.pi false false true (ME "KaonSPiPlusPiMin")

/-- `eta_decay` (SM.py 837–859). -/
noncomputable def etaDecay (l : List (Decl S)) : List (Decl S) :=
  withPi0 A c m (withPi A c m l) ++
  threeMeson m.eta m.photon m.photon false false false (ME "EtaTwoGamma") ++
  fourMeson m.eta m.pi0 m.pi0 m.pi0 false false false false (ME "EtaThreePi0") ++
  fourMeson m.eta m.pi0 m.pi m.pi false false false true (ME "EtaPiPlusPiMinPi0") ++
  fourMeson m.eta m.photon m.pi m.pi false false false true (ME "EtaPiPlusPiMinGamma")

/-- `neutral_rho_decay` (SM.py 861–868). -/
noncomputable def rho0Decay (l : List (Decl S)) : List (Decl S) :=
  withPi A c m l ++ threeMeson m.rho0 m.pi m.pi false true false (ME "Rho0PiPlusPiMin")

/-- `charged_rho_decay` (SM.py 870–880). -/
noncomputable def rhoDecay (l : List (Decl S)) : List (Decl S) :=
  withPi0 A c m (withPi A c m l) ++ threeMeson m.rho m.pi m.pi0 false false false (ME "RhoPlusPiPlusPi0")

/-- `omega_decay` (SM.py 882–896). -/
noncomputable def omegaDecay (l : List (Decl S)) : List (Decl S) :=
  withPi0 A c m (withPi A c m l) ++
  fourMeson m.omega m.pi m.pi m.pi0 false true false false (ME "OmegaPiPlusPiMinPi0") ++
  threeMeson m.omega m.pi0 m.photon false false false (ME "OmegaPi0Gamma")

/-- `eta_prime_decay` (SM.py 898–922). -/
noncomputable def etaPDecay (l : List (Decl S)) : List (Decl S) :=
  let l := if alreadyThere A l m.rho0 = true then l else rho0Decay A c ME m l
  let l := if alreadyThere A l m.eta = true then l else etaDecay A c ME m l
  withPi0 A c m (withPi A c m l) ++
  fourMeson m.etaP m.eta m.pi m.pi false false false true (ME "EtaPrimePiPlusPiMinEta") ++
  fourMeson m.etaP m.pi0 m.pi0 m.eta false false false false (ME "EtaPrimeTwoPi0Eta") ++
  threeMeson m.etaP m.rho0 m.photon false false false (ME "EtaPrimeRho0Gamma")

/-- `phi_decay` (SM.py 924–951). -/
noncomputable def phiDecay (l : List (Decl S)) : List (Decl S) :=
  let l := if alreadyThere A l m.rho0 = true then l else rho0Decay A c ME m l
  let l := if alreadyThere A l m.kaon = true then l else kaonDecay A c ME m l
  let l := if alreadyThere A l m.kaonL = true then l else kaonLDecay A c ME m l
  let l := if alreadyThere A l m.kaonS = true then l else kaonSDecay A c ME m l
  withPi0 A c m l ++
  threeMeson m.phi m.kaon m.kaon false true false (ME "PhiKPlusKMin") ++
  threeMeson m.phi m.kaonL m.kaonS false false false (ME "PhiK0LK0S") ++
  threeMeson m.phi m.rho0 m.pi0 false false false (ME "PhiRho0Pi0")

/-- The body of the final loop (SM.py 953–985). -/
noncomputable def mesonDecay : Meson → List (Decl S) → List (Decl S)
  | .pi0 => pi0Decay A c m
  | .pi => piDecay A c m
  | .kaon => kaonDecay A c ME m
  | .kaonL => kaonLDecay A c ME m
  | .kaonS => kaonSDecay A c ME m
  | .eta => etaDecay A c ME m
  | .rho0 => rho0Decay A c ME m
  | .rho => rhoDecay A c ME m
  | .omega => omegaDecay A c ME m
  | .etaP => etaPDecay A c ME m
  | .phi => phiDecay A c ME m

/-- `meson_interactions` (SM.py 661–987) for the given primary mesons, in their order. -/
noncomputable def mesonInteractions (primary : List Meson) : List (Decl S) :=
  primary.foldl (fun l x => mesonDecay A c ME m x l) []

/-! ## Heavy neutral lepton -/

/-- `sterile_active_scattering` (NuMSM.py 74–97). -/
noncomputable def sterileScattering (θ : ℝ) (N a b : S) : List (Decl S) :=
  let K1 : ℝ := if a = b then 2 else 1
  [⟨[N, b], [a, b], [false, false], [false, false], .four [sterileM c θ K1 0 ⟨0, 1, 2, 3⟩]⟩,
   ⟨[a, b], [N, b], [false, false], [false, false], .four [sterileM c θ K1 0 ⟨2, 3, 0, 1⟩]⟩]

/-- `sterile_active_to_leptons_NC` (NuMSM.py 99–121). -/
noncomputable def sterileNC (θ gL : ℝ) (N active lepton : S) : List (Decl S) :=
  [([false, true], [true, false]), ([true, false], [false, true])].map fun a =>
    ⟨[N, active], [lepton, lepton], a.1, a.2, .four
      [sterileM c θ (4 * gL ^ 2) 0 ⟨0, 2, 1, 3⟩, sterileM c θ (4 * c.gR ^ 2) 0 ⟨0, 3, 1, 2⟩,
        sterileM c θ 0 (4 * c.gR * gL) ⟨2, 3, 0, 1⟩]⟩

/-- `sterile_active_to_leptons_CC` (NuMSM.py 123–143). -/
noncomputable def sterileCC (θ : ℝ) (N active lepton1 lepton2 : S) : List (Decl S) :=
  [([N, active], [lepton2, lepton1]), ([active, N], [lepton1, lepton2])].map fun p =>
    ⟨p.1, p.2, [false, true], [true, false], .four [sterileM c θ 4 0 ⟨0, 2, 1, 3⟩]⟩

/-- `sterile_leptons_interactions` (NuMSM.py 145–212), without the removal of single integrals (162–164, 182–186, 202–204)
and the change of kinds (207–210). -/
noncomputable def sterileLeptons (thetas : String → ℝ) (N : S) (neutrinos leptons : List S) : List (Decl S) :=
  open Classical in
  (neutrinos.flatMap fun a => neutrinos.flatMap fun b =>
    if thetas (A.flavour a) ≠ 0 then sterileScattering c (thetas (A.flavour a)) N a b else []) ++
  leptons.flatMap fun lepton => neutrinos.flatMap fun neutrino =>
    (if thetas (A.flavour neutrino) ≠ 0 then
      sterileNC c (thetas (A.flavour neutrino)) (couplingL A c lepton neutrino) N neutrino lepton else []) ++
    (if 1 < leptons.length then (leptons.filter (· ≠ lepton)).flatMap fun otherLep =>
      if thetas (A.flavour lepton) ≠ 0 ∧ A.flavour neutrino = A.flavour otherLep then
        sterileCC c (thetas (A.flavour lepton)) N neutrino lepton otherLep else [] else [])

/-- `sterile_quark_neutral` (NuMSM.py 241–267).  Other charges leave `g_R` unbound; `none` there. -/
noncomputable def sterileQuarkNC (θ : ℝ) (N active quark : S) : Option (Decl S) :=
  (if A.Q quark = 2 / 3 then some c.gR else if A.Q quark = -1 / 3 then some (c.gR / 2) else none).map fun g =>
    ⟨[N, active], [quark, quark], [false, true], [false, true], .four
      [sterileM c θ (16 / 9 * g ^ 2) 0 ⟨0, 2, 1, 3⟩, sterileM c θ (1 / 9 * (3 - 4 * g) ^ 2) 0 ⟨0, 3, 1, 2⟩,
        sterileM c θ 0 (-4 / 9 * g * (3 - 4 * g)) ⟨2, 3, 0, 1⟩]⟩

/-- `sterile_quark_charged` (NuMSM.py 269–286). -/
noncomputable def sterileQuarkCC (θ : ℝ) (N lepton up down : S) : Decl S :=
  ⟨[N, lepton], [up, down], [false, true], [false, true],
    .four [sterileM c θ (4 * c.CKM (A.family up) (A.family down) ^ 2) 0 ⟨0, 3, 1, 2⟩]⟩

/-- `sterile_quark_interactions` (NuMSM.py 216–239); `none` if a neutral channel fails. -/
noncomputable def sterileQuarks (thetas : String → ℝ) (N : S) (neutrinos leptons quarks : List S) : Option (List (Decl S)) :=
  open Classical in do
  let nc ← (quarks.flatMap fun q => (neutrinos.filter fun a => thetas (A.flavour a) ≠ 0).map fun a => (q, a)).mapM
    fun x => sterileQuarkNC A c (thetas (A.flavour x.2)) N x.2 x.1
  let ud := (quarks.filter fun q => A.Q q = 2 / 3).flatMap fun u => (quarks.filter fun q => A.Q q = -1 / 3).map fun d => (u, d)
  some (nc ++ ud.flatMap fun x => (leptons.filter fun l => thetas (A.flavour l) ≠ 0).map fun l =>
    sterileQuarkCC A c (thetas (A.flavour l)) N l x.1 x.2)

/-- `neutral_scalar_meson` (NuMSM.py 341–359). -/
noncomputable def neutralScalar (θ : ℝ) (N active meson : S) : List (Decl S) :=
  [([false], [false, false]), ([true], [true, false])].map fun a =>
    ⟨[N], [active, meson], a.1, a.2, .three ((c.GF * θ * A.decayConstant meson) ^ 2 * A.mass N ^ 4 *
      |1 - (A.mass meson / A.mass N) ^ 2|)⟩

/-- `charged_scalar_meson` (NuMSM.py 361–385). -/
noncomputable def chargedScalar (θ : ℝ) (N lepton meson : S) : List (Decl S) :=
  [([false], [false, true]), ([true], [true, false])].map fun a =>
    ⟨[N], [lepton, meson], a.1, a.2, .three (2 * (c.GF * θ * A.decayConstant meson * c.CKM 1 1) ^ 2 * A.mass N ^ 4 *
      |(1 - (A.mass lepton / A.mass N) ^ 2) ^ 2 - (A.mass meson / A.mass N) ^ 2 * (1 + (A.mass lepton / A.mass N) ^ 2)|)⟩

/-- `kappa` (NuMSM.py 394–399); other names leave it unbound. -/
noncomputable def kappa (meson : S) : Option ℝ :=
  if A.name meson = "Neutral rho" then some (1 - 2 * c.sin2)
  else if A.name meson = "Omega" then some (4 * c.sin2 / 3)
  else if A.name meson = "Phi" then some (4 * c.sin2 / 3 - 1) else none

/-- `neutral_vector_meson` (NuMSM.py 387–413). -/
noncomputable def neutralVector (θ : ℝ) (N active meson : S) : Option (List (Decl S)) :=
  (kappa A c meson).map fun κ => [([false], [false, false]), ([true], [true, false])].map fun a =>
    ⟨[N], [active, meson], a.1, a.2, .three ((c.GF * θ * A.decayConstant meson * κ) ^ 2 * A.mass N ^ 4 *
      (1 + 2 * (A.mass meson / A.mass N) ^ 2) * (1 - (A.mass meson / A.mass N) ^ 2))⟩

/-- `charged_vector_meson` (NuMSM.py 416–440). -/
noncomputable def chargedVector (θ : ℝ) (N lepton meson : S) : List (Decl S) :=
  [([false], [false, true]), ([true], [true, false])].map fun a =>
    ⟨[N], [lepton, meson], a.1, a.2, .three (2 * (c.GF * θ * A.decayConstant meson * c.CKM 1 1) ^ 2 * A.mass N ^ 4 *
      ((1 - (A.mass lepton / A.mass N) ^ 2) ^ 2 + (A.mass meson / A.mass N) ^ 2 * (1 + (A.mass lepton / A.mass N) ^ 2)
        - 2 * (A.mass meson / A.mass N) ^ 4))⟩

/-- The loop over neutrinos and neutral mesons of `sterile_hadrons_interactions` (NuMSM.py 295–311). -/
noncomputable def sterileNeutralMesons (thetas : String → ℝ) (N : S) (neutrinos mesons : List S) :
    Option (List (Decl S)) :=
  open Classical in
  ((neutrinos.filter fun a => thetas (A.flavour a) ≠ 0).flatMap fun a =>
    (mesons.filter fun x => A.Q x = 0).map fun x => (a, x)).foldlM (fun acc y =>
      (if A.mesonType y.2 = "scalar" then some (neutralScalar A c (thetas (A.flavour y.1)) N y.1 y.2)
      else if A.mesonType y.2 = "vector" then neutralVector A c (thetas (A.flavour y.1)) N y.1 y.2
      else some []).map (acc ++ ·)) []

/-- The loop over charged leptons and charged mesons (NuMSM.py 313–329).  In the vector branch the mixing angle is
`thetas[neutrino.flavour]` with the variable `neutrino` left over from the first loop, the last element of `neutrinos`
(`last`; with no neutrinos `NameError`, not modelled). -/
noncomputable def sterileChargedMesons (thetas : String → ℝ) (N last : S) (leptons mesons : List S) : List (Decl S) :=
  open Classical in
  (leptons.filter fun l => thetas (A.flavour l) ≠ 0).flatMap fun l =>
    (mesons.filter fun x => A.Q x = -1).flatMap fun x =>
      if A.mesonType x = "scalar" then chargedScalar A c (thetas (A.flavour l)) N l x
      else if A.mesonType x = "vector" then chargedVector A c (thetas (A.flavour last)) N l x
      else []

end

end PyBBN
