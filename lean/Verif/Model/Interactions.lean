import Verif.Model.Py
import Mathlib.Data.String.Basic
import Mathlib.Data.Real.Basic
import Mathlib.Data.List.Sort
/-!
# Interactions: crossing, matrix elements, merging of integrals

`S` is the type of particle objects (equality in Python is identity, since `Particle` defines only
`__gt__`); the attributes read by the code are given by `Attr`.  Reals stand for doubles.
-/
namespace PyBBN

/-- Attributes of a particle used here (particles/__init__.py 30–75). -/
structure Attr (S : Type*) where
  name : S → String
  mass : S → ℝ
  majorana : S → Bool

/-- `IntegralItem` (interactions/__init__.py 21). -/
structure Item (S : Type*) where
  side : ℤ
  specie : S
  antiparticle : Bool
  index : ℕ
  crossed : Bool
deriving DecidableEq

section
variable {S : Type*} [DecidableEq S] (A : Attr S)

/-- `cross_particle` (interactions/__init__.py 119–125). -/
def crossParticle (x : Item S) : Item S :=
  { x with
    crossed := !x.crossed
    antiparticle := if ! A.majorana x.specie then !x.antiparticle else false
    side := -x.side }

/-- The legs passed to `itertools.permutations` (interactions/__init__.py 127–146): `zip` truncates to the
shorter list, the indices of the right side start at the full `len(particles[0])`. -/
def legs (p0 p1 : List S) (a0 a1 : List Bool) : List (Item S) :=
  ((p0.zip a0).mapIdx fun i x => ⟨-1, x.1, x.2, i, false⟩) ++
  ((p1.zip a1).mapIdx fun i x => ⟨1, x.1, x.2, i + p0.length, false⟩)

/-- `itertools.permutations`: tuples in the order of the positions chosen. -/
def itPerms {α : Type*} : ℕ → List α → List (List α)
  | 0, _ => [[]]
  | n + 1, l => (List.range l.length).flatMap fun i =>
      match l[i]? with
      | none => []
      | some x => (itPerms n (l.eraseIdx i)).map (x :: ·)

/-- `a < b` for particles: `Particle` has no `__lt__`, so Python calls the reflected `b.__gt__(a)`
(particles/__init__.py 103–104), which compares names. -/
def ltSpecie (a b : S) : Bool := decide (A.name a < A.name b)

/-- `a < b` for the named tuples: the first field in which they differ (`==`; identity for particles)
decides. -/
def ltItem (a b : Item S) : Bool :=
  if a.side ≠ b.side then a.side < b.side
  else if a.specie ≠ b.specie then ltSpecie A a.specie b.specie
  else if a.antiparticle ≠ b.antiparticle then a.antiparticle < b.antiparticle
  else if a.index ≠ b.index then a.index < b.index
  else a.crossed < b.crossed

/-- `sorted` of items.  Python's sort is stable and calls only `<`; this is a stable insertion sort with
`x ≤ y` meaning `not y < x`.  (For particles with distinct names `<` is a linear order and every
sorting algorithm gives the same list.) -/
def sortItems (l : List (Item S)) : List (Item S) :=
  l.insertionSort fun x y => ¬ ltItem A y x = true

/-- The tuple `reaction` for one permutation and one position of the arrow
(interactions/__init__.py 181–187). -/
def crossAll (perm : List (Item S)) (i : ℕ) : List (Item S) :=
  perm.mapIdx fun j x =>
    if (x.side > 0 ∧ j ≤ i) ∨ (x.side < 0 ∧ j > i) then crossParticle A x else x

/-- One pass of the inner loop (interactions/__init__.py 181–204): `none` stands for `continue`. -/
noncomputable def reactionOf (perm : List (Item S)) (i : ℕ) : Except Err (Option (List (Item S))) :=
  let reaction := crossAll A perm i
  let lhs := reaction.filter (·.side = -1)
  let rhs := reaction.filter (·.side = 1)
  let lhs := lhs.take 1 ++ sortItems A (lhs.drop 1)
  let rhs := sortItems A rhs
  open Classical in
  match lhs with
  | [] => .error .indexError
  | h :: t =>
    if h.antiparticle then .ok none
    else if ((h :: t).length = 1 ∧ A.mass h.specie ≤ (rhs.map fun x => A.mass x.specie).sum) ∨
        (∃ y, rhs = [y] ∧ A.mass y.specie ≤ ((h :: t).map fun x => A.mass x.specie).sum) then .ok none
    else .ok (some ((h :: t) ++ rhs))

/-- The dictionary update (206–208): a reaction whose key is present is not stored again.  The key is
the tuple of the fields of the items, so it determines the reaction. -/
def storeReaction (acc : List (List (Item S))) : Option (List (Item S)) → List (List (Item S))
  | none => acc
  | some r => if r ∈ acc then acc else acc ++ [r]

/-- `reactions_map` (interactions/__init__.py 148–210); dictionaries keep insertion order. -/
noncomputable def reactionsMap (p0 p1 : List S) (a0 a1 : List Bool) :
    Except Err (List (List (Item S))) :=
  let ls := legs p0 p1 a0 a1
  let jobs := (itPerms ls.length ls).flatMap fun perm =>
    (List.range (p0.length + p1.length - 1)).map fun i : ℕ => (perm, i)
  jobs.foldlM (fun acc job => (reactionOf A job.1 job.2).map (storeReaction acc)) []

end

/-! ## Matrix elements -/

/-- The index order `(i, j, k, l)`. -/
structure Ord4 where
  a : ℕ
  b : ℕ
  c : ℕ
  d : ℕ
deriving DecidableEq

/-- `FourParticleM` (four_particle/__init__.py 16–84). -/
structure M4 where
  K1 : ℝ
  K2 : ℝ
  K : ℝ
  order : Ord4

/-- Assignment to `order` (four_particle/__init__.py 57–61). -/
def normOrder (o : Ord4) : Ord4 := ⟨min o.a o.b, max o.a o.b, min o.c o.d, max o.c o.d⟩

/-- `FourParticleM(K1=…, K2=…, K=…, order=…)` (four_particle/__init__.py 33–40). -/
def mkM4 (K1 K2 K : ℝ) (o : Ord4) : Except Err M4 :=
  let o := normOrder o
  if [o.a, o.b, o.c, o.d].Nodup then .ok ⟨K1, K2, K, o⟩ else .error .generic

/-- `__iadd__` (four_particle/__init__.py 42–45): the constant `K` is not added. -/
noncomputable def M4.iadd (x y : M4) : M4 := { x with K1 := x.K1 + y.K1, K2 := x.K2 + y.K2 }

section
variable {S : Type*} [DecidableEq S]

/-- `apply_order` (four_particle/__init__.py 75–80). -/
noncomputable def M4.applyOrder (x : M4) (o : Ord4) (reaction : List (Item S)) : Except Err M4 :=
  match reaction[o.a]?, reaction[o.b]? with
  | some r0, some r1 =>
    .ok { x with order := normOrder o, K2 := if xor r0.crossed r1.crossed then x.K2 * (-1) else x.K2 }
  | _, _ => .error .indexError

/-- `map[val]` with `map = {item.index: i for i, item in enumerate(reaction)}`
(interactions/__init__.py 221); the last of several equal indices wins. -/
def posOf (reaction : List (Item S)) (v : ℕ) : Except Err ℕ :=
  match ((reaction.mapIdx fun i x => (x.index, i)).reverse.find? fun q => q.1 = v) with
  | some q => .ok q.2
  | none => .error .keyError

/-- The relabelling of one matrix element in `init_integrals` (interactions/__init__.py 219–222).  Each copy is
treated as a separate object: `copy.deepcopy` of a tuple that contains the same object twice keeps
the sharing, which is not modelled. -/
noncomputable def relabel (reaction : List (Item S)) (x : M4) : Except Err M4 := do
  let a ← posOf reaction x.order.a
  let b ← posOf reaction x.order.b
  let c ← posOf reaction x.order.c
  let d ← posOf reaction x.order.d
  x.applyOrder ⟨a, b, c, d⟩ reaction

end

open Classical in
/-- `stackable` (four_particle/__init__.py 82–84). -/
noncomputable def M4.stackable (x y : M4) : Bool :=
  decide (x.order = y.order ∨
    ((⟨x.order.c, x.order.d, x.order.a, x.order.b⟩ : Ord4) = y.order ∧ x.K2 = y.K2 ∧ y.K2 = 0))

/-! ## Merging -/

/-- A collision integral: its particle, reaction and matrix elements (boltzmann.py 9–62). -/
structure Integral4 (S : Type*) where
  particle : S
  reaction : List (Item S)
  Ms : List M4

open Classical in
/-- The inner loop over the matrix elements of the old integral (interactions/__init__.py 269–278):
`none` if the new element was not absorbed. -/
noncomputable def absorb : List M4 → M4 → Option (List M4)
  | [], _ => none
  | o :: os, n =>
    if o.K ≠ 0 then some (o.iadd n :: os)
    else if o.stackable n then some (o.iadd n :: os)
    else (absorb os n).map (o :: ·)

/-- One pass of the loop over the new elements (266–281); the second list collects the elements not absorbed. -/
noncomputable def mergeStep (st : List M4 × List M4) (n : M4) : List M4 × List M4 :=
  match absorb st.1 n with
  | some o => (o, st.2)
  | none => (st.1, st.2 ++ [n])

/-- The loop over the new elements (266–284): elements not absorbed are appended at the end. -/
noncomputable def mergeMs (old new : List M4) : List M4 :=
  let st := new.foldl mergeStep (old, [])
  st.1 ++ st.2

section
variable {S : Type*} [DecidableEq S]

/-- Species on one side of a reaction, the contents of the `Counter` (243–247). -/
def speciesOn (side : ℤ) (r : List (Item S)) : List S :=
  (r.filter (·.side = side)).map (·.specie)

/-- The test for a similar integral (254–258): the same particle and equal `Counter`s. -/
def similar (new old : Integral4 S) : Bool :=
  decide (new.particle = old.particle) &&
  (speciesOn (-1) new.reaction).isPerm (speciesOn (-1) old.reaction) &&
  (speciesOn 1 new.reaction).isPerm (speciesOn 1 old.reaction)

/-- `IntegralDeduplicator.append` (249–284). -/
noncomputable def dedupAppend : List (Integral4 S) → Integral4 S → List (Integral4 S)
  | [], new => [new]
  | o :: os, new =>
    if similar new o then { o with Ms := mergeMs o.Ms new.Ms } :: os else o :: dedupAppend os new

/-- `IntegralDeduplicator(new_integrals).integrals` (238–241). -/
noncomputable def dedup (l : List (Integral4 S)) : List (Integral4 S) := l.foldl dedupAppend []

/-- `IntegralDeduplicator(x)` where `x` may be `None` (`for … in None` raises `TypeError`). -/
noncomputable def dedupOpt : Option (List (Integral4 S)) → Except Err (List (Integral4 S))
  | none => .error .typeError
  | some l => .ok (dedup l)

/-- The class attribute `Interaction.integrals` (interactions/__init__.py 34). -/
def interactionClassIntegrals : Option (List (Integral4 S)) := none

/-- `Interaction.__init__` (interactions/__init__.py 36–38): reads `self.integrals`, not the argument. -/
noncomputable def interactionInit (_name : Option String) (_integrals : Option (List (Integral4 S))) :
    Except Err (List (Integral4 S)) :=
  dedupOpt interactionClassIntegrals

/-- One pass of the loop over the reactions in `CrossGeneratingInteraction.__init__`, with `init_integrals`
(interactions/__init__.py 107–115, 212–231), for four-particle matrix elements. -/
noncomputable def initIntegral (Ms : List M4) (acc : List (Integral4 S)) (r : List (Item S)) :
    Except Err (List (Integral4 S)) :=
  match r.filter (·.side = -1) with
  | [] => .error .indexError
  | h :: _ =>
    if h.antiparticle then .ok acc
    else (Ms.mapM (relabel r)).map fun ms => acc ++ [⟨h.specie, r, ms⟩]

/-- `CrossGeneratingInteraction.__init__` for four-particle matrix elements
(interactions/__init__.py 105–117). -/
noncomputable def crossGenerating (A : Attr S) (p0 p1 : List S) (a0 a1 : List Bool) (Ms : List M4) :
    Except Err (List (Integral4 S)) := do
  let rs ← reactionsMap A p0 p1 a0 a1
  let ints ← rs.foldlM (initIntegral Ms) []
  return dedup ints

end

/-! ## Three-particle elements -/

open Classical in
/-- The same inner loop for `ThreeParticleM` (three_particle/__init__.py 14–38), which has only `K` and no
`stackable`: an old element with `K = 0` raises. -/
noncomputable def absorb3 : List ℝ → ℝ → Except Err (Option (List ℝ))
  | [], _ => .ok none
  | o :: os, n => if o ≠ 0 then .ok (some ((o + n) :: os)) else .error .attributeError

/-- One pass of the loop for three-particle elements. -/
noncomputable def mergeStep3 (st : List ℝ × List ℝ) (n : ℝ) : Except Err (List ℝ × List ℝ) :=
  (absorb3 st.1 n).map fun
    | some o => (o, st.2)
    | none => (st.1, st.2 ++ [n])

/-- Merging for three-particle elements. -/
noncomputable def mergeMs3 (old new : List ℝ) : Except Err (List ℝ) :=
  (new.foldlM mergeStep3 (old, [])).map fun st => st.1 ++ st.2

end PyBBN
