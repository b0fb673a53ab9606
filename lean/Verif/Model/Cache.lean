import Verif.Model.Universe
/-!
# What a four-particle integral keeps between calls

four_particle/__init__.py 95–163: `initialize` stores the grids on its first call and forgets `creaction` and `cMs`;
`integrate` builds the two when they are missing and reuses them otherwise.  The rest of `integrate` reads the present state.
-/
namespace PyBBN

variable {ι G C : Type*}

/-- Attributes of an integral that survive a call (boltzmann.py 28, four_particle/__init__.py 99–103). -/
structure Kept (G C : Type*) where
  grids : Option G
  /-- `creaction` together with `cMs`, which are built and forgotten together; `none` for `None` -/
  creaction : Option C

/-- The collision integrals of a universe with `integrate` cut at the places where kept attributes are read. -/
structure KeptWorld (ι G C : Type*) where
  kind : ι → CKind
  owner : ι → ℕ
  /-- `(self.reaction[1].specie.grid, self.reaction[2].specie.grid)` in the present state (99–100) -/
  gridsOf : ι → List (Part ι) → G
  /-- `Neglect4pInteraction` with `return_function` (107–108); `none` if not neglected -/
  early : ι → List (Part ι) → Params → Option IntOut
  /-- the lists made from the present state of the particles (127–143, 162–163) -/
  build : ι → List (Part ι) → Params → C
  /-- the remaining lines, which also read the present state -/
  finish : ι → G → C → List (Part ι) → Params → Except Err IntOut

/-- `self.grids = …`, `self.creaction = None`, `self.cMs = None` (four_particle/__init__.py 99–103). -/
def initKept (w : KeptWorld ι G C) (l : List (Part ι)) (i : ι) (k : Kept G C) : Kept G C :=
  { grids := some (k.grids.getD (w.gridsOf i l)), creaction := none }

/-- `integrate` (four_particle/__init__.py 105–205) with what is kept afterwards.  Before the first `initialize` the
attributes `grids` (`None`, subscripted in 114–120) and `creaction` (missing, 127) raise; an exception ends the run. -/
def integrateKept (w : KeptWorld ι G C) (p : Params) (l : List (Part ι)) (i : ι) (k : Kept G C) :
    Except Err (IntOut × Kept G C) :=
  match w.early i l p with
  | some out => .ok (out, k)
  | none => match k.grids with
    | none => .error .typeError
    | some g => match w.finish i g (k.creaction.getD (w.build i l p)) l p with
      | .error e => .error e
      | .ok out => .ok (out, { k with creaction := some (k.creaction.getD (w.build i l p)) })

variable [DecidableEq ι]

/-- `init_interactions` (evolution.py 215–227) with the kept attributes. -/
noncomputable def initInteractionsKept (w : KeptWorld ι G C) (p : Params) (ints : List ι) :
    List (Part ι) × (ι → Kept G C) → List (Part ι) × (ι → Kept G C) :=
  fun x => ints.foldl (fun x i => (x.1.modify (w.owner i) fun y => (y.1, registerIntegral y.1 p i y.2),
    Function.update x.2 i (initKept w x.1 i (x.2 i)))) x

/-- The loop over the registered integrals (particles/__init__.py 303–317). -/
def outputsKept (w : KeptWorld ι G C) (p : Params) (l : List (Part ι)) : List ι → (ι → Kept G C) →
    Except Err (List (CKind × IntOut) × (ι → Kept G C))
  | [], k => .ok ([], k)
  | i :: is, k => match integrateKept w p l i (k i) with
    | .error e => .error e
    | .ok (out, ki) => match outputsKept w p l is (Function.update k i ki) with
      | .error e => .error e
      | .ok (outs, k) => .ok ((w.kind i, out) :: outs, k)

/-- The branch without `fast_decay` (particles/__init__.py 300–339). -/
noncomputable def collisionTermKept (w : KeptWorld ι G C) (p : Params) (l : List (Part ι)) (sp : Species) (s : PState ι)
    (k : ι → Kept G C) : Except Err (List ℝ × (ι → Kept G C)) :=
  match outputsKept w p l s.integrals k with
  | .error e => .error e
  | .ok (outs, k) => match collect outs with
    | .error e => .error e
    | .ok (ab, b) =>
      let AB := sumArr sp.grid.length ab
      let B := sumArr sp.grid.length b
      match (List.range sp.grid.length).mapM fun j => collComponent sp p s j ((AB[j]?).getD 0) ((B[j]?).getD 0) with
      | .error e => .error e
      | .ok c => .ok (c, k)

/-- `particle.collision_integral = particle.integrate_collisions()` (evolution.py 238, particles/__init__.py 285–339). -/
noncomputable def collideOneKept (w : KeptWorld ι G C) (p : Params) (x : List (Part ι) × (ι → Kept G C)) (n : ℕ) :
    Except Err (List (Part ι) × (ι → Kept G C)) :=
  match x.1[n]? with
  | none => .ok x
  | some (sp, s) =>
    if s.integrals = [] ∨ s.decayed = true then .ok (x.1.set n (sp, { s with coll := sp.zeros }), x.2)
    else
      let r := hasDecayed sp p s
      if r.2 then .ok (x.1.set n (sp, { r.1 with coll := sp.zeros }), x.2)
      else if sp.fastDecay then .error .attributeError
      else match collisionTermKept w p x.1 sp s x.2 with
        | .error e => .error e
        | .ok (c, k) => .ok (x.1.set n (sp, { s with coll := c }), k)

/-- The loop of `calculate_collisions` (evolution.py 234–238). -/
noncomputable def collideAllKept (w : KeptWorld ι G C) (p : Params) : List ℕ → List (Part ι) × (ι → Kept G C) →
    Except Err (List (Part ι) × (ι → Kept G C))
  | [], x => .ok x
  | n :: ns, x => match collideOneKept w p x n with
    | .error e => .error e
    | .ok x => collideAllKept w p ns x

/-- `calculate_collisions` (evolution.py 229–238). -/
noncomputable def calculateCollisionsKept (w : KeptWorld ι G C) (p : Params) (x : List (Part ι) × (ι → Kept G C)) :
    Except Err (List (Part ι) × (ι → Kept G C)) :=
  collideAllKept w p ((List.range x.1.length).filter fun k =>
    match x.1[k]? with | some x => ! x.2.integrals.isEmpty | none => false) x

/-- Steps 1–4 of `integrand` (evolution.py 286–293). -/
noncomputable def universeStepKept (w : KeptWorld ι G C) (dens : Species → PState ι → Params → ℝ) (ints : List ι) (p : Params)
    (x : List (Part ι) × (ι → Kept G C)) : Except Err (List (Part ι) × (ι → Kept G C)) :=
  match calculateCollisionsKept w p (initInteractionsKept w p ints (updateParticles dens p x.1, x.2)) with
  | .error e => .error e
  | .ok y => match updateDistributions p y.1 with
    | .error e => .error e
    | .ok l => .ok (l, y.2)

/-- Several steps (evolution.py 134–139). -/
noncomputable def universeRunKept (w : KeptWorld ι G C) (dens : Species → PState ι → Params → ℝ) (ints : List ι) :
    List Params → List (Part ι) × (ι → Kept G C) → Except Err (List (Part ι) × (ι → Kept G C))
  | [], x => .ok x
  | p :: ps, x => match universeStepKept w dens ints p x with
    | .error e => .error e
    | .ok x => universeRunKept w dens ints ps x

/-! ## Four-particle integrals -/

/-- Lines 144–205 of `FourParticleIntegral.integrate` (four_particle/__init__.py) for a given `creaction` and `cMs`; same
restrictions as `integrate4`. -/
noncomputable def integrate4From (r : Fin 4 → Reactant) (cMs : List CM) (c : Int4 ι) (p : Params) (sched : List (List ℕ)) :
    Except Err IntOut :=
  let fast := (c.sp 0).fastDecay
  let const := constant4 c.GF (c.sp 0).dof c.majorana c.mult p
  let pts := (gridCut4 (c.sp 0).grid c.ub).1
  let zeros := (gridCut4 (c.sp 0).grid c.ub).2
  let ps := pts.map (· / p.aT)
  let loop (k : CKind) := integration4Exact r cMs k.toInt ps (c.min1 / p.aT) (c.max1 / p.aT)
    (c.min2 / p.aT) (c.max2 / p.aT) (c.max3 / p.aT) sched
  if (c.kind = .full ∨ c.kind = .fullVac) ∧ ¬ fast = true then do
    let A ← loop .f1
    let B ← loop .ff
    let f ← ps.mapM fun x => particleDistribution (c.sp 0) p (c.st 0) (x * p.aT)
    let C := List.zipWith (· + ·) A (List.zipWith (· * ·) f B)
    .ok (.two ((C ++ zeros).map (· * const)) ((B ++ zeros).map (· * const)))
  else do
    let full ← loop c.kind
    integrateTail4 c.kind fast c.creationFast c.br c.num (fun l => c.total (l.map (· * const)))
      (List.replicate (full ++ zeros).length const) (c.st 0).dist (full ++ zeros)

/-- Momentum limits of the two grids kept by an integral. -/
structure Limits where
  min1 : ℝ
  max1 : ℝ
  min2 : ℝ
  max2 : ℝ

/-- Four-particle integrals as they are called by a universe: `c i l p` is what integral `i` reads in the present state, `lim` the
limits of the grids of its second and third particle. -/
noncomputable def keptFour (kind : ι → CKind) (owner : ι → ℕ) (lim : ι → List (Part ι) → Limits)
    (c : ι → List (Part ι) → Params → Int4 ι) (sched : ι → List (List ℕ)) :
    KeptWorld ι Limits ((Fin 4 → Reactant) × List CM) where
  kind := kind
  owner := owner
  gridsOf := lim
  early i l p := if (c i l p).neglect then
      some (returnFunction (c i l p).kind ((c i l p).sp 0).fastDecay ((c i l p).sp 0).grid.length) else none
  build i l p := ((c i l p).reaction p, (c i l p).Ms.map (toCM (c i l p).GF))
  finish i g k l p := integrate4From k.1 k.2
    { c i l p with min1 := g.min1, max1 := g.max1, min2 := g.min2, max2 := g.max2 } p (sched i)

end PyBBN
