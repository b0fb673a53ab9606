import Verif.Model.Selection
import Verif.Model.Interactions
/-!
# Kinds of the integrals of fast decaying species (library/NuMSM.py 207–210, 331–337)

An integral is represented by its reaction, as in `Model/Secondary`.  `fast s` is `hasattr(s, 'fast_decay')`.
-/
namespace PyBBN

variable {S : Type*} [DecidableEq S]

/-- The last loop of `sterile_leptons_interactions` (NuMSM.py 207–210) at one integral of the given kind. -/
def leptonKind (fast : S → Bool) (kind : CKind) (r : List (Item S)) : Except Err CKind :=
  match r with
  | [] => .error .indexError
  | h :: _ => .ok (if fast h.specie then .fCreation else kind)

/-- The last loop of `sterile_hadrons_interactions` (NuMSM.py 331–337) at one integral of the given kind. -/
def hadronKind (fast : S → Bool) (kind : CKind) (r : List (Item S)) : Except Err CKind :=
  match r with
  | [] => .error .indexError
  | h :: _ => .ok (if fast h.specie then (if pyCreation (sumSides r) then .fCreation else .fDecay) else kind)

end PyBBN
