import Verif.Model.Interactions
import Verif.Model.Particle
import Verif.Model.DynArray
import Mathlib.Analysis.SpecialFunctions.Pow.Real
/-!
# Ordering, filtering, reaction types, multiplicities, the QCD transition

common/utils.py 125–166, evolution.py 199–205 and 377–404, common/__init__.py 154–163,
common/kinematics.py 325–345, 361–374, 387–441, and the last part of `integrate` in
interactions/four_particle/__init__.py 182–205 and interactions/three_particle/__init__.py.
-/
namespace PyBBN

/-! ## Lists of particles -/

section
variable {P : Type*} (mass : P → ℝ) (name : P → String)

open Classical in
/-- `(m, p) < (m', p')` for the pairs built by `particle_orderer` (utils.py 164–165).  Tuples compare
by the first differing entry; particles compare by the reflected `__gt__`, i.e. by name
(particles/__init__.py 103–104); identical particles and particles of the same name are not `<`. -/
noncomputable def ltPart (x y : P) : Bool :=
  if mass x ≠ mass y then decide (mass x < mass y) else decide (name x < name y)

/-- `particle_orderer` (utils.py 163–166): `sorted(…, reverse=True)` is the stable sort in descending
order; here the insertion sort for `x ≥ y := not x < y`. -/
noncomputable def particleOrderer (l : List P) : List P :=
  l.insertionSort fun x y => ¬ ltPart mass name x y = true

/-- `particle_filter` (utils.py 158–160). -/
def particleFilter (names : List String) (l : List P) : List P :=
  l.filter fun p => ! names.contains (name p)

end

/-! ## Interactions -/

/-- What `interaction_filter` reads of a collision integral: the reaction as pairs of species name and
side (`integral.reaction`), and an identifier of the object. -/
structure FInt (ι : Type*) where
  id : ι
  reaction : List (String × ℤ)
deriving DecidableEq

/-- Condition of the comprehension for `first_only=True` (utils.py 148–150); an empty reaction has no
element 0.  `rt` is the argument `reaction_type`, whose entries are integers or `None`. -/
def keepFirst {ι : Type*} (names : List String) (rt : List (Option ℤ)) (x : FInt ι) : Except Err Bool :=
  match x.reaction with
  | [] => .error .indexError
  | a :: _ => .ok (! names.contains a.1 && ! rt.contains (some (x.reaction.map Prod.snd).sum))

/-- Condition of the comprehension for `first_only=False` (utils.py 152–154). -/
def keepAll {ι : Type*} (names : List String) (rt : List (Option ℤ)) (x : FInt ι) : Bool :=
  x.reaction.all (fun a => ! names.contains a.1) &&
    ! rt.contains (some (x.reaction.map Prod.snd).sum)

/-- A list comprehension whose condition can raise. -/
def compM {α : Type*} (c : α → Except Err Bool) : List α → Except Err (List α)
  | [] => .ok []
  | x :: l => match c x with
    | .error e => .error e
    | .ok b => match compM c l with
      | .error e => .error e
      | .ok l' => .ok (if b then x :: l' else l')

/-- The body of the loop of `interaction_filter` (utils.py 147–154) on one list of integrals. -/
def filterIntegrals {ι : Type*} (names : List String) (firstOnly : Bool) (rt : List (Option ℤ))
    (l : List (FInt ι)) : Except Err (List (FInt ι)) :=
  compM (if firstOnly then keepFirst names rt else fun x => .ok (keepAll names rt x)) l

/-- `interaction_filter` (utils.py 145–155) on the lists `inter.integrals` of all interactions. -/
def interactionFilter {ι : Type*} (names : List String) (firstOnly : Bool) (rt : List (Option ℤ)) :
    List (List (FInt ι)) → Except Err (List (List (FInt ι)))
  | [] => .ok []
  | l :: ls => match filterIntegrals names firstOnly rt l with
    | .error e => .error e
    | .ok l' => match interactionFilter names firstOnly rt ls with
      | .error e => .error e
      | .ok ls' => .ok (l' :: ls')

/-! ## Reaction types -/

/-- `reaction_type.CREATION` (utils.py 128–132) of the sum of sides. -/
def pyCreation (s : ℤ) : Bool := s = -1 ∨ s = -2
/-- `reaction_type.SCATTERING` (utils.py 133–137). -/
def pyScattering (s : ℤ) : Bool := s = 0
/-- `reaction_type.DECAY` (utils.py 138–142). -/
def pyDecay (s : ℤ) : Bool := s = 1 ∨ s = 2

/-- `Kinematics` of the four-particle extension (integral.h 21–25); a `static_cast` from another value
matches none of the enumerators. -/
inductive Kin4 | decay | scattering | creation | other
deriving DecidableEq

/-- `get_reaction_type` (four_particle/cpp/integral.cpp 351–357). -/
def kin4 (sides : List ℤ) : Kin4 :=
  if sides.sum = 2 then .decay
  else if sides.sum = 0 then .scattering
  else if sides.sum = -2 then .creation
  else .other

/-- `Kinematics_3` of the three-particle extension (integral.h 19–22). -/
inductive Kin3 | decay | creation | other
deriving DecidableEq

/-- `get_reaction_type` (three_particle/cpp/integral.cpp 377–383). -/
def kin3 (sides : List ℤ) : Kin3 :=
  if sides.sum = 1 then .decay
  else if sides.sum = -1 then .creation
  else .other

/-! ## Multiplicities -/

section
variable {S : Type*} [DecidableEq S] (A : Attr S)

/-- `Counter(item.specie for item in reaction if item.side == s)[x]` (kinematics.py 329–330). -/
def countSide (r : List (Item S)) (s : ℤ) (x : S) : ℕ :=
  ((r.filter fun i => i.side = s).map (·.specie)).count x

/-- `utils.reaction_type(interaction).sumsides` (utils.py 126–127). -/
def sumSides (r : List (Item S)) : ℤ := (r.map (·.side)).sum

/-- Name of the heavy neutral lepton tested for in kinematics.py. -/
def hnlName : String := "Sterile neutrino (Dirac)"

/-- `CollisionMultiplier4p` (kinematics.py 325–335).  `charged` is the truth value of
`interaction.particle.Q`.  `or`/`and` are lazy, so `reaction[3]` is looked at for creations without
the heavy lepton only. -/
def multiplier4 (charged : Bool) (r : List (Item S)) : Except Err ℕ :=
  match r with
  | [] => .error .indexError -- never built: `sides`/`reaction[0]` fail earlier
  | x0 :: _ =>
    let cond : Except Err Bool :=
      if hnlName ∈ r.map (fun i => A.name i.specie) then .ok true
      else if pyCreation (sumSides r) then
        match r[3]? with
        | none => .error .indexError
        | some x3 => .ok (! (A.majorana x3.specie && charged))
      else .ok false
    match cond with
    | .error e => .error e
    | .ok false => .ok 1
    | .ok true =>
      let left := countSide r (-1) x0.specie
      let right := countSide r 1 x0.specie
      if left = 2 ∧ (right = 0 ∨ right = 1) then .ok 2
      else if left = 3 ∧ right = 0 then .ok 3
      else .ok 1

/-- `CollisionMultiplier3p` (kinematics.py 337–345). -/
def multiplier3 (charged : Bool) (r : List (Item S)) : Except Err ℕ :=
  match r with
  | [] => .error .indexError
  | x0 :: _ =>
    let cond : Except Err Bool :=
      if hnlName ∈ r.map (fun i => A.name i.specie) then .ok true
      else if pyCreation (sumSides r) then
        match r[2]? with
        | none => .error .indexError
        | some x2 => .ok (! (A.majorana x2.specie && charged))
      else .ok false
    match cond with
    | .error e => .error e
    | .ok false => .ok 1
    | .ok true =>
      let left := countSide r (-1) x0.specie
      let right := countSide r 1 x0.specie
      if left = 2 ∧ right = 0 then .ok 2 else .ok 1

end

/-! ## The last part of `integrate` -/

/-- `CollisionIntegralKind` (four_particle/cpp/integral.h 28–37). -/
inductive CKind
  | full | f1 | ff | fullVac | f1Vac | ffVac | fCreation | fDecay
deriving DecidableEq

/-- The value of `kinematics.scaling`: `False` or an array. -/
inductive Scaled
  | no
  | arr (l : List ℝ)

/-- Truth value: an array of more than one element raises `ValueError`; an empty one is false (numpy
warns); one element counts as that number. -/
noncomputable def Scaled.truth : Scaled → Except Err Bool
  | .no => .ok false
  | .arr [] => .ok false
  | .arr [x] => .ok (open Classical in decide (x ≠ 0))
  | .arr _ => .error .valueError

/-- What `integrate` returns: one array or a pair. -/
inductive IntOut
  | one (l : List ℝ)
  | two (F B : List ℝ)

/-- `kinematics.scaling` (kinematics.py 361–374).  `creationFast`: the reaction is a creation from a
particle with `fast_decay`; `br`: the branching ratio found (last matching key; unbound local if none);
`num`: `num_creation` of that particle; `total l`: `simps(l * constant * dof * TEMPLATE**2, TEMPLATE)`.
The array is scaled in place, so the caller's `fullstack` becomes the returned array. -/
noncomputable def scaling (creationFast : Bool) (br : Option ℝ) (num : ℝ) (total : List ℝ → ℝ)
    (full : List ℝ) : Except Err Scaled :=
  if creationFast then
    match br with
    | none => .error .generic -- UnboundLocalError
    | some b =>
      open Classical in
      if total full = 0 then .ok .no
      else .ok (.arr (full.map (· * (b * num / total full))))
  else .ok (.arr full)

/-- `kinematics.return_function` (kinematics.py 17–20). -/
def returnFunction (kind : CKind) (fast : Bool) (n : ℕ) : IntOut :=
  if kind = .full ∨ kind = .fullVac ∨ fast = true then .two (List.replicate n 0) (List.replicate n 0)
  else .one (List.replicate n 0)

/-- Elementwise product of arrays of the same length. -/
noncomputable def mulArr (x y : List ℝ) : List ℝ := List.zipWith (· * ·) x y

/-- The common end (four_particle/__init__.py 196–205 and the same lines of the three-particle file);
`const` is the array `constant` (a scalar in the four-particle case), `dist` the particle's
`_distribution`. -/
noncomputable def integrateEnd (kind : CKind) (fast : Bool) (const dist : List ℝ) (full : List ℝ) :
    IntOut :=
  if fast = true ∧ (kind = .fDecay ∨ kind = .ffVac) then
    .two (List.replicate full.length 0) (mulArr full const)
  else if fast = true ∧ (kind = .fCreation ∨ kind = .f1Vac) then
    .two (mulArr full const) (List.replicate full.length 0)
  else if kind = .ff ∨ kind = .fDecay ∨ kind = .ffVac then
    .one (mulArr full (mulArr const dist))
  else .one (mulArr full const)

/-- four_particle/__init__.py 190–205: `if not scaled_output: …` is evaluated outside any `try`. -/
noncomputable def integrateTail4 (kind : CKind) (fast creationFast : Bool) (br : Option ℝ) (num : ℝ)
    (total : List ℝ → ℝ) (const dist full : List ℝ) : Except Err IntOut :=
  match scaling creationFast br num total full with
  | .error e => .error e
  | .ok s => match s.truth with
    | .error e => .error e
    | .ok false => .ok (returnFunction kind fast full.length)
    | .ok true => match s with
      | .no => .ok (returnFunction kind fast full.length) -- unreachable: `False` is falsy
      | .arr l => .ok (integrateEnd kind fast const dist l)

/-- three_particle/__init__.py, from `scaled_output = …`: `try: if not scaled_output: return … except:
fullstack = scaled_output`.  Since `scaling` works in place the array used afterwards is the scaled one in
every case. -/
noncomputable def integrateTail3 (kind : CKind) (fast creationFast : Bool) (br : Option ℝ) (num : ℝ)
    (total : List ℝ → ℝ) (const dist full : List ℝ) : Except Err IntOut :=
  match scaling creationFast br num total full with
  | .error e => .error e
  | .ok s => match s, s.truth with
    | _, .ok false => .ok (returnFunction kind fast full.length)
    | .no, _ => .ok (returnFunction kind fast full.length)
    | .arr l, _ => .ok (integrateEnd kind fast const dist l)

/-! ## `Icoll_fast_decay` -/

/-- Python objects handed to `utils.reaction_type`: a collision integral (has the attribute
`reaction`) or a bare tuple of items (has not). -/
inductive RTArg (S : Type*)
  | integral (reaction : List (Item S))
  | tuple (items : List (Item S))

/-- `reaction_type.__init__` (utils.py 126–127). -/
def reactionTypeInit {S : Type*} : RTArg S → Except Err ℤ
  | .integral r => .ok (sumSides r)
  | .tuple _ => .error .attributeError

/-- One collision integral of a fast decaying particle: its reaction and the outcome of
`integral.integrate`. -/
structure FDInt (S : Type*) where
  reaction : List (Item S)
  outcome : Except Err (List ℝ × List ℝ)

/-- First loop (kinematics.py 392–396). -/
def fdIntegrate {S : Type*} : List (FDInt S) → Except Err (List (List ℝ × List ℝ))
  | [] => .ok []
  | x :: l => match x.outcome with
    | .error e => .error e
    | .ok v => match fdIntegrate l with
      | .error e => .error e
      | .ok vs => .ok (v :: vs)

/-- Second loop (kinematics.py 412–427): `scaleOne` stands for the body after the test of line 414,
given the sum of sides found there. -/
def fdScale {S : Type*} (scaleOne : ℤ → List (Item S) → List ℝ → Except Err (List ℝ)) :
    List (FDInt S × List ℝ) → Except Err (List (List ℝ))
  | [] => .ok []
  | (x, ff) :: l => match reactionTypeInit (.tuple x.reaction) with
    | .error e => .error e
    | .ok s => match scaleOne s x.reaction ff with
      | .error e => .error e
      | .ok v => match fdScale scaleOne l with
        | .error e => .error e
        | .ok vs => .ok (v :: vs)

/-- `Icoll_fast_decay` (kinematics.py 387–441): `combine` stands for the sums at the end.  The
statements between the loops only compute arrays and are dropped. -/
def icollFastDecay {S R : Type*} (scaleOne : ℤ → List (Item S) → List ℝ → Except Err (List ℝ))
    (combine : List (List ℝ) → List (List ℝ) → R) (l : List (FDInt S)) : Except Err R :=
  match fdIntegrate l with
  | .error e => .error e
  | .ok vs => match fdScale scaleOne (l.zip (vs.map Prod.snd)) with
    | .error e => .error e
    | .ok ffs => .ok (combine (vs.map Prod.fst) ffs)

/-! ## The QCD transition -/

/-- A particle of the universe: fixed and mutable part. -/
abbrev Part (ι : Type*) := Species × PState ι

section
variable {ι : Type*}

open Classical in
/-- Contribution of one particle in `entropic_dof_eq` (common/__init__.py 158–162). -/
noncomputable def dofOf (T : ℝ) (x : Part ι) : ℝ :=
  if T > x.1.mass ∧ inEq x.1 x.2 = true then
    (if x.1.fermion then x.1.dof * 7 / 8 else x.1.dof)
  else 0

/-- `Params.entropic_dof_eq` (common/__init__.py 154–163). -/
noncomputable def entropicDof (T : ℝ) (l : List (Part ι)) : ℝ :=
  l.foldl (fun d x => d + dofOf T x) 0

/-- The part of the universe touched by the transition; rows of `data` are of type `Row`, interactions
of type `γ` (compared by identity). -/
structure QUni (ι Row γ : Type*) where
  data : DynArr Row
  params : Params
  particles : List (Part ι)
  interactions : List γ

/-- `add_particles` (evolution.py 199–205). -/
noncomputable def addParticles (dens : PState ι → Params → ℝ) (p : Params) (l new : List (Part ι)) :
    List (Part ι) :=
  particleOrderer (fun x : Part ι => x.1.mass) (fun x => x.1.name)
    (l ++ new.map fun x => (x.1, setParams x.1 dens p x.2))

/-- The names removed (evolution.py 382–386). -/
def quarkNames : List String :=
  ["Up quark", "Down quark", "Charm quark", "Strange quark", "Top quark", "Bottom quark", "Gluon"]

/-- `for inter in quarkic: interactions.remove(inter)` (evolution.py 398–400). -/
def removeAll {γ : Type*} [DecidableEq γ] : List γ → List γ → Except Err (List γ)
  | l, [] => .ok l
  | l, q :: qs => if q ∈ l then removeAll (l.erase q) qs else .error .valueError

/-- `QCD_transition` (evolution.py 377–404).  `aTcol` is the column `aT`; `rho`, `ent` are the sums
`total_energy_density`, `total_entropy` over the particle attributes; `none` is Python's `None`. -/
noncomputable def qcdTransition {Row γ : Type*} [DecidableEq γ] (c : Consts) (aTcol : Row → ℝ)
    (dens : PState ι → Params → ℝ) (rho ent : List (Part ι) → ℝ)
    (hadrons : Option (List (Part ι))) (quarkic hadronic secondary : Option (List γ))
    (u : QUni ι Row γ) : Except Err (QUni ι Row γ) :=
  match u.data.truncate with
  | .error e => .error e
  | .ok data =>
    let before := entropicDof u.params.T u.particles
    let kept := particleFilter (fun x : Part ι => x.1.name) quarkNames u.particles
    match hadrons with
    | none => .error .typeError
    | some hs =>
      let ps := addParticles dens u.params kept hs
      let after := entropicDof u.params.T ps
      match pyGet (data.column aTcol) (-1) with
      | .error e => .error e
      | .ok aT =>
        open Classical in
        if after = 0 then .error .zeroDivision
        else
          let p := Params.update c { u.params with aT := aT * (before / after) ^ ((1 : ℝ) / 3) }
            (rho ps) (ent ps)
          let ps := ps.map fun x => (x.1, particleUpdate x.1 dens p x.2)
          let removed : Except Err (List γ) :=
            match quarkic with
            | none => .ok u.interactions
            | some qs => if u.interactions = [] then .ok [] else removeAll u.interactions qs
          match removed with
          | .error e => .error e
          | .ok is => .ok
            { data := data, params := p, particles := ps
              interactions := is ++ hadronic.getD [] ++ secondary.getD [] }

end
end PyBBN
