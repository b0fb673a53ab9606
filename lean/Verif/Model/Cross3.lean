import Verif.Model.Interactions
/-!
# Generated integrals with three-particle matrix elements
-/
namespace PyBBN

/-- A three-particle collision integral: its particle, reaction and the constants `K` of its matrix elements
(boltzmann.py 9–62, three_particle/__init__.py 14–38). -/
structure Integral3 (S : Type*) where
  particle : S
  reaction : List (Item S)
  Ks : List ℝ

section
variable {S : Type*} [DecidableEq S]

/-- The test for a similar integral (interactions/__init__.py 243–258). -/
def similar3 (new old : Integral3 S) : Bool :=
  decide (new.particle = old.particle) &&
  (speciesOn (-1) new.reaction).isPerm (speciesOn (-1) old.reaction) &&
  (speciesOn 1 new.reaction).isPerm (speciesOn 1 old.reaction)

/-- `IntegralDeduplicator.append` (interactions/__init__.py 249–284) for three-particle elements. -/
noncomputable def dedupAppend3 : List (Integral3 S) → Integral3 S → Except Err (List (Integral3 S))
  | [], new => .ok [new]
  | o :: os, new =>
    if similar3 new o then (mergeMs3 o.Ks new.Ks).map fun ks => { o with Ks := ks } :: os
    else (dedupAppend3 os new).map (o :: ·)

/-- One pass of the loop over the reactions, with `init_integrals` (interactions/__init__.py 107–115, 212–231): the elements
are copied; those that are no `FourParticleM` are not relabelled. -/
def initIntegral3 (Ks : List ℝ) (acc : List (Integral3 S)) (r : List (Item S)) : Except Err (List (Integral3 S)) :=
  match r.filter (·.side = -1) with
  | [] => .error .indexError
  | h :: _ => if h.antiparticle then .ok acc else .ok (acc ++ [⟨h.specie, r, Ks⟩])

/-- `CrossGeneratingInteraction.__init__` for three-particle matrix elements (interactions/__init__.py 105–117). -/
noncomputable def crossGenerating3 (A : Attr S) (p0 p1 : List S) (a0 a1 : List Bool) (Ks : List ℝ) :
    Except Err (List (Integral3 S)) := do
  let rs ← reactionsMap A p0 p1 a0 a1
  let ints ← rs.foldlM (initIntegral3 Ks) []
  ints.foldlM dedupAppend3 []

end
end PyBBN
