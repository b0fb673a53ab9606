import Verif.Model.Library
import Verif.Model.Selection
/-!
# Interactions of the decay products

`interactions_decay_products` (library/NuMSM.py 444–499).  An integral is represented by its reaction; integrals merged by
`CrossGeneratingInteraction` have the same species on each side (C44), hence the same type of reaction.
-/
namespace PyBBN

section
variable {S : Type*} [DecidableEq S] (A : LibAttr S) (c : LibConst) (ME : String → ℝ) (m : Chain S)

/-- `species[name]` (NuMSM.py 458–461): the outgoing legs of that name in all integrals of the primary interactions
(given by their reactions). -/
def produced (prim : List (List (Item S))) (name : String) : ℕ :=
  (prim.flatten.filter (·.side = 1)).countP fun x => A.name x.specie = name

/-- The interactions declared (NuMSM.py 463–488).  `ms` are the names of the mesons in the argument `mesons`, in its order;
their particles, the leptons and the neutrinos are those of `m`, whose field `muon` is not used: `muon_tau[0]` is
`species['Muon']`, raised by one if `muon_dec`. -/
noncomputable def secondaryDecls (muonDec : Bool) (ms : List Meson) (prim : List (List (Item S))) : List (Decl S) :=
  let lep := if (produced A prim "Muon" ≠ 0 ∧ ¬ muonDec = true) ∨ produced A prim "Tau" ≠ 0 then
    leptonInteractions A c m.leptons m.neutrinos else []
  let primary := ms.filter fun x => produced A prim (A.name (m.get x)) ≠ 0
  let muon := produced A prim "Muon" + if muonDec then 1 else 0
  lep ++ if primary ≠ [] then mesonInteractions A c ME { m with muon := muon } primary else []

/-- `kind_creation` (NuMSM.py 448–453). -/
def kindCreation (kind : CKind) : CKind := if kind = .f1Vac ∨ kind = .ffVac then .f1Vac else .fCreation

/-- `kind_decay` (NuMSM.py 448–453). -/
def kindDecay (kind : CKind) : CKind := if kind = .f1Vac ∨ kind = .ffVac then .ffVac else .fDecay

/-- The integrals left in one interaction and their kinds (NuMSM.py 490–497). -/
noncomputable def Decl.kept (kind : CKind) (d : Decl S) : Except Err (List (List (Item S) × CKind)) := do
  let rs ← reactionsMap A.toAttr d.left d.right d.antiL d.antiR
  let sum := fun r : List (Item S) => (r.map (·.side)).sum
  return (rs.filter fun r => pyCreation (sum r) || pyDecay (sum r)).map fun r =>
    (r, if pyCreation (sum r) then kindCreation kind else kindDecay kind)

end
end PyBBN
