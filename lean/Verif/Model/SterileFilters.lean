import Verif.Model.Library
/-!
# The integrals kept by `sterile_leptons_interactions`

library/NuMSM.py 145–205: every declaration generates its integrals at once, some of which are removed afterwards.  Removed
or kept, an integral is not changed; the later change of `kind` for species with `fast_decay` (207–210) is not modelled.
-/
namespace PyBBN

section
variable {S : Type*} [DecidableEq S] (A : LibAttr S) (c : LibConst)

/-- `CrossGeneratingInteraction(…).integrals` of a four-particle declaration (interactions/__init__.py 105–117).  Not used
for three-particle declarations. -/
noncomputable def Decl.integrals (d : Decl S) : Except Err (List (Integral4 S)) :=
  match d.amp with
  | .four Ms => crossGenerating A.toAttr d.left d.right d.antiL d.antiR Ms
  | .three _ => .error .typeError

/-- `integral.reaction[0].specie.name`; a generated reaction is never empty. -/
def headName (i : Integral4 S) : Option String := i.reaction.head?.map fun x => A.name x.specie

/-- The two declarations of a list comprehension over two cases. -/
def pairOf {α : Type*} : List α → Except Err (α × α)
  | [x, y] => .ok (x, y)
  | _ => .error .indexError

/-- Neutrino scattering (NuMSM.py 152–166): from the second declaration the integrals of species that have one in the first
are removed. -/
noncomputable def keepScattering (θ : ℝ) (N a b : S) : Except Err (List (Integral4 S)) := do
  let d ← pairOf (sterileScattering c θ N a b)
  let i0 ← d.1.integrals A
  let i1 ← d.2.integrals A
  return i0 ++ i1.filter fun i => headName A i ∉ i0.map (headName A)

/-- `Counter([item.specie.name for item in reaction if item.side == -1])[name]`. -/
def countLeft (i : Integral4 S) (name : String) : ℕ :=
  (i.reaction.filter (·.side = -1)).countP fun x => A.name x.specie = name

/-- Neutral current (NuMSM.py 171–187): for muons and taus the integrals of other species than the heavy neutrino with
exactly one such lepton on the left are removed, then those of the lepton in the second declaration. -/
noncomputable def keepNC (θ gL : ℝ) (N active lepton : S) : Except Err (List (Integral4 S)) := do
  let d ← pairOf (sterileNC c θ gL N active lepton)
  let i0 ← d.1.integrals A
  let i1 ← d.2.integrals A
  if A.name lepton = "Muon" ∨ A.name lepton = "Tau" then
    let keep := fun i => ¬ (headName A i ≠ some (A.name N) ∧ countLeft A i (A.name lepton) = 1)
    return i0.filter keep ++ (i1.filter keep).filter fun i => headName A i ≠ some (A.name lepton)
  else return i0 ++ i1

/-- `sum([item.side for item in reaction if item.specie.name in [other_lep.name, sterile.name]])`. -/
def namedSideSum (i : Integral4 S) (n1 n2 : String) : ℤ :=
  ((i.reaction.filter fun x => A.name x.specie = n1 ∨ A.name x.specie = n2).map (·.side)).sum

/-- Charged current (NuMSM.py 192–205): only the integrals with the second lepton and the heavy neutrino on opposite sides
are kept. -/
noncomputable def keepCC (θ : ℝ) (N active lepton otherLep : S) : Except Err (List (Integral4 S)) := do
  let d ← pairOf (sterileCC c θ N active lepton otherLep)
  let i0 ← d.1.integrals A
  let i1 ← d.2.integrals A
  let keep := fun i => namedSideSum A i (A.name otherLep) (A.name N) = 0
  return i0.filter keep ++ i1.filter keep

/-- One lepton and one neutrino in `sterile_leptons_interactions` (NuMSM.py 169–205). -/
noncomputable def keepLepton (thetas : String → ℝ) (N : S) (leptons : List S) (lepton neutrino : S) :
    Except Err (List (Integral4 S)) :=
  open Classical in do
  let nc ← (if thetas (A.flavour neutrino) ≠ 0 then
    keepNC A c (thetas (A.flavour neutrino)) (couplingL A c lepton neutrino) N neutrino lepton else .ok [])
  let others := if 1 < leptons.length then leptons.filter (· ≠ lepton) else []
  let cc ← others.mapM fun o => (if thetas (A.flavour lepton) ≠ 0 ∧ A.flavour neutrino = A.flavour o then
    keepCC A c (thetas (A.flavour lepton)) N neutrino lepton o else .ok [])
  return nc ++ cc.flatten

/-- `sterile_leptons_interactions` (NuMSM.py 145–212): all integrals, in order. -/
noncomputable def sterileLeptonIntegrals (thetas : String → ℝ) (N : S) (neutrinos leptons : List S) :
    Except Err (List (Integral4 S)) :=
  open Classical in do
  let s ← (neutrinos.product neutrinos).mapM fun x => (if thetas (A.flavour x.1) ≠ 0 then
    keepScattering A c (thetas (A.flavour x.1)) N x.1 x.2 else .ok [])
  let r ← (leptons.product neutrinos).mapM fun x => keepLepton A c thetas N leptons x.1 x.2
  return s.flatten ++ r.flatten

end
end PyBBN
