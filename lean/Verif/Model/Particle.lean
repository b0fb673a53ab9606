import Verif.Model.Params
import Verif.Model.Interpolation
import Verif.Model.Integrators
import Verif.Model.Statistics
/-!
# Particle species: particles/__init__.py and the parts of common/kinematics.py acting on particles

Arrays over the momentum grid are lists.  Thermodynamic quantities (`populate_methods` 106–113) enter
as an abstract function giving the density, since only the density feeds back into the state machine.
-/
namespace PyBBN

/-- What does not change about a species (particles/__init__.py 49–66). -/
structure Species where
  name : String
  mass : ℝ
  dof : ℝ
  fermion : Bool
  thermalDyn : Bool
  Q : ℝ
  grid : List ℝ
  /-- `hasattr(self, 'fast_decay')` -/
  fastDecay : Bool
  lifetime : ℝ

/-- `eta` (69). -/
def Species.eta (sp : Species) : ℤ := if sp.fermion then 1 else -1

/-- `statistics` as a function of energy over temperature (70). -/
noncomputable def Species.stat (sp : Species) (e : ℝ) : ℝ := if sp.fermion then Fermi e else Bose e

/-- The mutable part of a particle; `ι` names collision integrals. -/
structure PState (ι : Type*) where
  T : ℝ
  aT : ℝ
  Tdec : ℝ
  dist : List ℝ
  coll : List ℝ
  integrals : List ι
  tDec : ℝ
  decayed : Bool
  /-- `density` set by `populate_methods` -/
  density : ℝ
  /-- rows of `data['distribution']`, `data['collision_integral']` -/
  histDist : List (List ℝ)
  histColl : List (List ℝ)
  /-- columns `t`, `density` of `data['params']` -/
  histT : List ℝ
  histDensity : List ℝ

variable {ι : Type*}

open Classical in
/-- `in_equilibrium` (143–146): `(T > decoupling_temperature) * thermal_dyn`. -/
noncomputable def inEq (sp : Species) (s : PState ι) : Bool := decide (s.T > s.Tdec) && sp.thermalDyn

/-- The four computation regimes (particles/__init__.py 30–36). -/
inductive Regime
  | radiation | intermediate | dust | noneq
  deriving DecidableEq

open Classical in
/-- `regime` (115–141); `factor` is the setting `REGIME_SWITCHING_FACTOR`. -/
noncomputable def regime (factor : ℝ) (sp : Species) (s : PState ι) : Regime :=
  if inEq sp s = false then .noneq
  else if s.T > sp.mass * factor then .radiation
  else if s.T * factor < sp.mass then .dust
  else .intermediate

open Classical in
/-- `conformal_energy` (161–173). -/
noncomputable def conformalEnergy (sp : Species) (y confMass : ℝ) : ℝ :=
  if sp.mass > 0 then Real.sqrt (y ^ 2 + confMass ^ 2) else |y|

/-- `equilibrium_distribution(conf_mass=...)` on the grid (376–386). -/
noncomputable def eqDistribution (sp : Species) (aT confMass : ℝ) : List ℝ :=
  sp.grid.map fun y => sp.stat (conformalEnergy sp y confMass / aT)

/-- `numpy.zeros(MOMENTUM_SAMPLES)`. -/
def Species.zeros (sp : Species) : List ℝ := List.replicate sp.grid.length 0

/-- `init_distribution()` (388–395) with the default conformal mass `mass * params.a` (175–179). -/
noncomputable def initDistribution (sp : Species) (p : Params) (s : PState ι) : PState ι :=
  if sp.thermalDyn then { s with dist := eqDistribution sp s.aT (sp.mass * p.a) }
  else { s with dist := sp.zeros }

open Classical in
/-- `update` (215–253).  `dens` is the density computed by `populate_methods` (106–113) in the new
state; prints are dropped. -/
noncomputable def particleUpdate (sp : Species) (dens : PState ι → Params → ℝ) (p : Params)
    (s : PState ι) : PState ι :=
  let oldeq := inEq sp s
  let s := if oldeq = true ∨ (sp.thermalDyn = false ∧ sp.Q ≠ 0) then
      { initDistribution sp p s with aT := p.aT }
    else s
  let s := { s with T := s.aT / p.a }
  let s := if inEq sp s ≠ oldeq ∧ inEq sp s = false then
      initDistribution sp p { s with tDec := p.t }
    else s
  let s := { s with coll := sp.zeros }
  let s := { s with density := dens s p }
  { s with histT := s.histT ++ [p.t], histDensity := s.histDensity ++ [s.density] }

/-- `set_params` (190–205). -/
noncomputable def setParams (sp : Species) (dens : PState ι → Params → ℝ) (p : Params)
    (s : PState ι) : PState ι :=
  let s := { s with T := p.T, aT := p.aT, tDec := 0 }
  let s := if sp.thermalDyn = false ∧ s.Tdec = 0 then { s with Tdec := p.T } else s
  let s := initDistribution sp p s
  let s := { s with histDist := s.histDist ++ [s.dist] }
  let s := { s with density := dens s p }
  particleUpdate sp dens p s

/-- A floating point entry of a collision integral. -/
inductive CNum
  | fin (r : ℝ)
  | nan
  | inf

/-- Lines 260–263: nan becomes 0, any infinity fails the assertion. -/
def sanitize : List CNum → Except Err (List ℝ)
  | [] => .ok []
  | .fin r :: l => match sanitize l with
    | .error e => .error e
    | .ok l => .ok (r :: l)
  | .nan :: l => match sanitize l with
    | .error e => .error e
    | .ok l => .ok (0 :: l)
  | .inf :: _ => .error .assertionError

/-- `update_distribution` (255–283) for a species without `fast_decay`; `coll` is the collision
integral attribute as computed (its entries may be nan or infinite).  Unequal lengths: numpy raises
`ValueError`. -/
noncomputable def updateDistribution (sp : Species) (p : Params) (coll : List CNum) (s : PState ι) :
    Except Err (PState ι) :=
  if inEq sp s then .ok s
  else match sanitize coll with
    | .error e => .error e
    | .ok c =>
      if c.length ≠ s.dist.length then .error .valueError
      else
        let d := List.zipWith (fun f i => max (f + i * p.h) 0) s.dist c
        .ok { s with dist := d, coll := c, integrals := [],
                     histColl := s.histColl ++ [c], histDist := s.histDist ++ [d] }

open Classical in
/-- `update_distribution` (255–283) for a species with `fast_decay`: the collision integral is checked
and stored but the distribution is the decaying thermal relic (268–275). -/
noncomputable def updateDistributionFast (sp : Species) (p : Params) (coll : List CNum)
    (s : PState ι) : Except Err (PState ι) :=
  if inEq sp s then .ok s
  else match sanitize coll with
    | .error e => .error e
    | .ok c =>
      let tDec := if s.tDec = 0 then s.histT[1]? else some s.tDec
      match tDec with
      | none => .error .indexError
      | some tDec =>
        let d := if sp.thermalDyn then
            (eqDistribution sp s.aT (sp.mass * s.aT / s.Tdec)).map
              fun f => f * Real.exp (-(p.t - tDec) / sp.lifetime)
          else sp.zeros
        let d := d.map fun f => max f 0
        .ok { s with dist := d, coll := c, integrals := [], tDec := tDec,
                     histColl := s.histColl ++ [c], histDist := s.histDist ++ [d] }

open Classical in
/-- `has_decayed` (common/kinematics.py 376–385): the new state and the answer. `len(ps)` is the grid
length.  The environment flag for the sterile neutrino is not modelled. -/
noncomputable def hasDecayed (sp : Species) (p : Params) (s : PState ι) : PState ι × Bool :=
  let thr := 1e-10 * (p.aIni / 10) ^ 3
  match s.histDensity[0]? with
  | none => (s, false)
  | some d0 =>
    if s.histDist.length > 1 ∧ sp.mass ≠ 0 ∧ d0 ≠ 0 ∧ s.density / d0 < thr ∧ sp.fastDecay = false then
      ({ s with decayed := true, dist := sp.zeros }, true)
    else (s, false)

/-- `distribution(p)` (341–374). -/
noncomputable def particleDistribution (sp : Species) (p : Params) (s : PState ι) (y : ℝ) :
    Except Err ℝ :=
  if inEq sp s then
    .ok (1 / (Real.exp (conformalEnergy sp y (sp.mass * p.a) / s.aT) + sp.eta))
  else
    distributionInterpolation sp.grid s.dist y (sp.mass * s.aT / s.Tdec) sp.eta s.aT false

/-- One component of the non-fast-decay branch of `calculate_collision_integral` (317–339): the
Adams–Moulton solver applied to the interpolated distribution and the last five stored terms. -/
noncomputable def collComponent (sp : Species) (p : Params) (s : PState ι) (k : ℕ) (AB B : ℝ) :
    Except Err ℝ :=
  match sp.grid[k]? with
  | none => .error .indexError
  | some g =>
    match particleDistribution sp p s g with
    | .error e => .error e
    | .ok y =>
      adamsMoulton y ((pyLast s.histColl maxAM).map fun row => (row[k]?).getD 0) AB B p.h none

/-- `calculate_collision_integral` (288–339) on the own grid, without `fast_decay`.  `AB`, `B` are the
summed outputs of the registered integrals.  Returns the new state and the term. -/
noncomputable def calculateCollision (sp : Species) (p : Params) (AB B : ℕ → ℝ) (s : PState ι) :
    Except Err (PState ι × List ℝ) :=
  if s.integrals = [] ∨ s.decayed = true then .ok (s, sp.zeros)
  else
    let (s, dec) := hasDecayed sp p s
    if dec then .ok (s, sp.zeros)
    else
      match (List.range sp.grid.length).mapM fun k => collComponent sp p s k (AB k) (B k) with
      | .error e => .error e
      | .ok l => .ok (s, l)

/-- `FourParticleIntegral.initialize` (interactions/four_particle/__init__.py 92–103) and
`ThreeParticleIntegral.initialize` (interactions/three_particle/__init__.py 45–54): registration with
the first particle. -/
noncomputable def registerIntegral (sp : Species) (p : Params) (i : ι) (s : PState ι) : PState ι :=
  open Classical in
  if p.T < s.Tdec ∧ inEq sp s = false then { s with integrals := s.integrals ++ [i] } else s

/-- Everything `Universe.integrand` (evolution.py 287–294) does to one species without `fast_decay` in
one step, oscillations off: update, registration of the integrals of which it is the first particle,
collision term (only if something is registered, evolution.py 231), distribution update.  `AB`, `B`
give the summed integrals in the state reached. -/
noncomputable def particleStep (sp : Species) (dens : PState ι → Params → ℝ) (ints : List ι)
    (AB B : PState ι → ℕ → ℝ) (p : Params) (s : PState ι) : Except Err (PState ι) :=
  let s := particleUpdate sp dens p s
  let s := ints.foldl (fun s i => registerIntegral sp p i s) s
  let r := if s.integrals = [] then .ok (s, s.coll) else calculateCollision sp p (AB s) (B s) s
  match r with
  | .error e => .error e
  | .ok (s, c) => updateDistribution sp p (c.map .fin) s

/-- Several steps in a row (evolution.py 137–150 repeats `integrand`); one `Params` per step. -/
noncomputable def particleRun (sp : Species) (dens : PState ι → Params → ℝ) (ints : List ι)
    (AB B : PState ι → ℕ → ℝ) : List Params → PState ι → Except Err (PState ι)
  | [], s => .ok s
  | p :: ps, s => match particleStep sp dens ints AB B p s with
    | .error e => .error e
    | .ok s => particleRun sp dens ints AB B ps s

/-- The same for a species with `fast_decay`: the collision term is the outcome `icoll` of
`Icoll_fast_decay` (particles/__init__.py 297–298), the distribution update is the exponential one. -/
noncomputable def particleStepFast (sp : Species) (dens : PState ι → Params → ℝ) (ints : List ι)
    (icoll : PState ι → Except Err (List ℝ)) (p : Params) (s : PState ι) : Except Err (PState ι) :=
  let s := particleUpdate sp dens p s
  let s := ints.foldl (fun s i => registerIntegral sp p i s) s
  let r := if s.integrals = [] then .ok s.coll
    else if s.decayed then .ok sp.zeros else icoll s
  match r with
  | .error e => .error e
  | .ok c => updateDistributionFast sp p (c.map .fin) s

/-- Several such steps. -/
noncomputable def particleRunFast (sp : Species) (dens : PState ι → Params → ℝ) (ints : List ι)
    (icoll : PState ι → Except Err (List ℝ)) : List Params → PState ι → Except Err (PState ι)
  | [], s => .ok s
  | p :: ps, s => match particleStepFast sp dens ints icoll p s with
    | .error e => .error e
    | .ok s => particleRunFast sp dens ints icoll ps s

end PyBBN
