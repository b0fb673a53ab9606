import Verif.Model.Assembly
/-!
# Steps 1–4 of `Universe.integrand` for all particles together

evolution.py 207–258 and particles/__init__.py 285–339.  Particles are referred to by their position in
`universe.particles`.  Oscillations are off (they are treated in Oscillations.lean), no species has a
`flavour` mixing.
-/
namespace PyBBN

variable {ι : Type*}

/-- The collision integrals `ι` of all interactions of a universe: kind, position of the first particle of
the reaction in `universe.particles`, and the outcome of `integrate(TEMPLATE)` as a function of the present
state of all particles. -/
structure World (ι : Type*) where
  kind : ι → CKind
  owner : ι → ℕ
  eval : ι → List (Part ι) → Params → Except Err IntOut

/-- `update_particles` (evolution.py 207–213); `dens` is the density computed by `populate_methods`. -/
noncomputable def updateParticles (dens : Species → PState ι → Params → ℝ) (p : Params)
    (l : List (Part ι)) : List (Part ι) :=
  l.map fun x => (x.1, particleUpdate x.1 (dens x.1) p x.2)

/-- `init_interactions` (evolution.py 215–227): every integral registers with its first particle. -/
noncomputable def initInteractions (w : World ι) (p : Params) (ints : List ι) (l : List (Part ι)) :
    List (Part ι) :=
  ints.foldl (fun l i => l.modify (w.owner i) fun x => (x.1, registerIntegral x.1 p i x.2)) l

/-- The loop over the registered integrals (particles/__init__.py 303–317), in the present state `l` of all
particles: the results with their kinds. -/
def outputs (w : World ι) (p : Params) (l : List (Part ι)) : List ι → Except Err (List (CKind × IntOut))
  | [] => .ok []
  | i :: is => match w.eval i l p with
    | .error e => .error e
    | .ok out => match outputs w p l is with
      | .error e => .error e
      | .ok outs => .ok ((w.kind i, out) :: outs)

/-- The branch without `fast_decay` (particles/__init__.py 300–339): integrals, sums, Adams–Moulton solver. -/
noncomputable def collisionTerm (w : World ι) (p : Params) (l : List (Part ι)) (sp : Species)
    (s : PState ι) : Except Err (List ℝ) :=
  match outputs w p l s.integrals with
  | .error e => .error e
  | .ok outs => match collect outs with
    | .error e => .error e
    | .ok (ab, b) =>
      let AB := sumArr sp.grid.length ab
      let B := sumArr sp.grid.length b
      (List.range sp.grid.length).mapM fun j =>
        collComponent sp p s j ((AB[j]?).getD 0) ((B[j]?).getD 0)

/-- `particle.collision_integral = particle.integrate_collisions()` (evolution.py 238,
particles/__init__.py 285–339) for the particle at position `k`.  With `fast_decay` the call raises
(C58). -/
noncomputable def collideOne (w : World ι) (p : Params) (l : List (Part ι)) (k : ℕ) :
    Except Err (List (Part ι)) :=
  match l[k]? with
  | none => .ok l
  | some (sp, s) =>
    if s.integrals = [] ∨ s.decayed = true then .ok (l.set k (sp, { s with coll := sp.zeros }))
    else
      let r := hasDecayed sp p s
      if r.2 then .ok (l.set k (sp, { r.1 with coll := sp.zeros }))
      else if sp.fastDecay then .error .attributeError
      else match collisionTerm w p l sp s with
        | .error e => .error e
        | .ok c => .ok (l.set k (sp, { s with coll := c }))

/-- The loop of `calculate_collisions` (evolution.py 234–238) over the given positions. -/
noncomputable def collideAll (w : World ι) (p : Params) : List ℕ → List (Part ι) → Except Err (List (Part ι))
  | [], l => .ok l
  | k :: ks, l => match collideOne w p l k with
    | .error e => .error e
    | .ok l => collideAll w p ks l

/-- `calculate_collisions` (evolution.py 229–238): the particles with registered integrals, in the order of
the list. -/
noncomputable def calculateCollisions (w : World ι) (p : Params) (l : List (Part ι)) :
    Except Err (List (Part ι)) :=
  collideAll w p ((List.range l.length).filter fun k =>
    match l[k]? with | some x => ! x.2.integrals.isEmpty | none => false) l

/-- `update_distributions` (evolution.py 239–255) without oscillations, for particles without
`fast_decay`. -/
noncomputable def updateDistributions (p : Params) : List (Part ι) → Except Err (List (Part ι))
  | [] => .ok []
  | x :: l => match updateDistribution x.1 p (x.2.coll.map .fin) x.2 with
    | .error e => .error e
    | .ok s => match updateDistributions p l with
      | .error e => .error e
      | .ok l => .ok ((x.1, s) :: l)

/-- Steps 1–4 of `integrand` (evolution.py 286–293). -/
noncomputable def universeStep (w : World ι) (dens : Species → PState ι → Params → ℝ) (ints : List ι)
    (p : Params) (l : List (Part ι)) : Except Err (List (Part ι)) :=
  match calculateCollisions w p (initInteractions w p ints (updateParticles dens p l)) with
  | .error e => .error e
  | .ok l => updateDistributions p l

/-- Several steps, one set of parameters each (evolution.py 134–139). -/
noncomputable def universeRun (w : World ι) (dens : Species → PState ι → Params → ℝ) (ints : List ι) :
    List Params → List (Part ι) → Except Err (List (Part ι))
  | [], l => .ok l
  | p :: ps, l => match universeStep w dens ints p l with
    | .error e => .error e
    | .ok l => universeRun w dens ints ps l

end PyBBN
