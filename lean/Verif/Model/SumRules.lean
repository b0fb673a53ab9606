import Verif.Model.Interactions
/-!
# The sum-rule script of the project

`tests/conservation_sum_rules/__main__.py` keeps the elastic processes of `neutrino_interactions` only, and records the
collision integrals of the neutrinos; `tests/conservation_sum_rules/test.py` plots the rate at which their numbers change.
-/
namespace PyBBN

variable {S : Type*} [DecidableEq S]

/-- The condition under which an integral is kept (tests/conservation_sum_rules/__main__.py 46–50): the `Counter` of the
species on side −1 equals that on side +1.  Particles are compared by identity, as in python; a `Counter` is the list up to
the order. -/
def elastic (i : Integral4 S) : Bool := (speciesOn (-1) i.reaction).isPerm (speciesOn 1 i.reaction)

/-- `interaction.integrals = integrals[num]` for every interaction (tests/conservation_sum_rules/__main__.py 42–53), given the
integrals of each. -/
def elasticOnly (o : List (List (Integral4 S))) : List (List (Integral4 S)) := o.map fun l => l.filter elastic

end PyBBN
