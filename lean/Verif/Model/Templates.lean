import Verif.Model.Library
/-!
# Particle templates

library/SM.py 44–453 and library/NuMSM.py 57–69: the attributes read by the interaction library.  One particle object per
template; masses and decay constants in MeV.
-/
namespace PyBBN

/-- The particle templates. -/
inductive Tmpl
  | photon | gluon | neutron | proton
  | pi0 | pi | kaon | kaonL | kaonS | eta | rho | rho0 | omega | etaP | phi
  | nuE | nuMu | nuTau | electron | muon | tau
  | up | down | charm | strange | top | bottom
  | sterile
deriving DecidableEq

namespace Tmpl

/-- `'name'`. -/
def name : Tmpl → String
  | photon => "Photon" | gluon => "Gluon" | neutron => "Neutron" | proton => "Proton"
  | pi0 => "Neutral pion" | pi => "Charged pion" | kaon => "Charged kaon" | kaonL => "Kaon long" | kaonS => "Kaon short"
  | eta => "Eta" | rho => "Charged rho" | rho0 => "Neutral rho" | omega => "Omega" | etaP => "Eta prime" | phi => "Phi"
  | nuE => "Electron neutrino" | nuMu => "Muon neutrino" | nuTau => "Tau neutrino"
  | electron => "Electron" | muon => "Muon" | tau => "Tau"
  | up => "Up quark" | down => "Down quark" | charm => "Charm quark" | strange => "Strange quark" | top => "Top quark"
  | bottom => "Bottom quark" | sterile => "Sterile neutrino (Dirac)"

/-- `'mass'` in MeV; 0 if absent (particles/__init__.py 50).  The mass of the heavy neutrino is an argument. -/
def mass (mN : ℚ) : Tmpl → ℚ
  | photon => 0 | gluon => 0 | neutron => 939.565378 | proton => 938.272046
  | pi0 => 134.98 | pi => 139.57 | kaon => 493.677 | kaonL => 497.611 | kaonS => 497.611
  | eta => 547.86 | rho => 775.11 | rho0 => 775.49 | omega => 782.65 | etaP => 957.78 | phi => 1019.46
  | nuE => 0 | nuMu => 0 | nuTau => 0 | electron => 0.511 | muon => 105.658 | tau => 1776.82
  | up => 2.2 | down => 4.7 | charm => 1280 | strange => 96 | top => 173100 | bottom => 4180
  | sterile => mN

/-- `'majorana'`. -/
def majorana : Tmpl → Bool
  | photon => true | gluon => true | pi0 => true | kaonL => true | kaonS => true | eta => true | rho0 => true
  | omega => true | etaP => true | phi => true | _ => false

/-- `'Q'`. -/
def Q : Tmpl → ℚ
  | proton => -1 | pi => -1 | kaon => -1 | rho => -1 | electron => -1 | muon => -1 | tau => -1
  | up => 2 / 3 | charm => 2 / 3 | top => 2 / 3 | down => -1 / 3 | strange => -1 / 3 | bottom => -1 / 3
  | _ => 0

/-- `'flavour'` (leptons only; empty elsewhere). -/
def flavour : Tmpl → String
  | nuE => "electron" | electron => "electron" | nuMu => "muon" | muon => "muon" | nuTau => "tau" | tau => "tau" | _ => ""

/-- `'type'` (mesons only; empty elsewhere). -/
def mesonType : Tmpl → String
  | pi0 => "scalar" | pi => "scalar" | kaon => "scalar" | kaonL => "scalar" | kaonS => "scalar" | eta => "scalar"
  | etaP => "scalar" | rho => "vector" | rho0 => "vector" | omega => "vector" | phi => "vector" | _ => ""

/-- `'decay_constant'` in MeV (mesons only; 0 elsewhere). -/
def decayConstant : Tmpl → ℚ
  | pi0 => 130.2 | pi => 130.2 | kaon => 155.6 | kaonL => 155.6 | kaonS => 155.6 | eta => 81.7 | rho => 209
  | rho0 => 208.9 | omega => 195.5 | etaP => -94.7 | phi => 229.5 | _ => 0

/-- `'family'` (quarks only; 0 elsewhere). -/
def family : Tmpl → ℕ
  | up => 1 | down => 1 | charm => 2 | strange => 2 | top => 3 | bottom => 3 | _ => 0

end Tmpl

/-- The attributes of the templates, for a heavy neutrino of mass `mN` MeV and the unit `MeV`. -/
noncomputable def tmplAttr (MeV : ℝ) (mN : ℚ) : LibAttr Tmpl where
  name := Tmpl.name
  mass x := (Tmpl.mass mN x : ℝ) * MeV
  majorana := Tmpl.majorana
  Q := Tmpl.Q
  flavour := Tmpl.flavour
  mesonType := Tmpl.mesonType
  decayConstant x := (Tmpl.decayConstant x : ℝ) * MeV
  family := Tmpl.family

/-- The particles of the meson chains (SM.py 667–704) when every template is in the lists. -/
def tmplChain (leptons neutrinos : List Tmpl) (muon : ℕ) : Chain Tmpl where
  photon := .photon
  electron := .electron
  muonP := .muon
  nuE := .nuE
  nuMu := .nuMu
  pi := .pi
  pi0 := .pi0
  kaon := .kaon
  kaonL := .kaonL
  kaonS := .kaonS
  eta := .eta
  rho0 := .rho0
  rho := .rho
  omega := .omega
  etaP := .etaP
  phi := .phi
  leptons := leptons
  neutrinos := neutrinos
  muon := muon

end PyBBN
